import Verif.Spec.SharedJobs

/-! Helper lemmas: in which order the jobs take and drop their guards. -/

namespace Ozz.Shared

open Spec.Shared

section Generic
variable {R : Type} {E : R → Type} {X Y : Type} [DecidableEq R] {q : R → Prop} {ι : Type} [LT ι] {rank : R → ι}

theorem closing_give (held : List (Guard R)) (x : X) : Closing (give held x : Prog E X) held := by
  induction held with
  | nil => rfl
  | cons g held ih =>
    refine ⟨List.mem_cons_self, ?_⟩
    rw [List.erase_cons_head]
    exact ih

theorem twoPhase_give (held : List (Guard R)) (x : X) : TwoPhase q (give held x : Prog E X) held := by
  cases held with
  | nil => rfl
  | cons g held =>
    refine ⟨List.mem_cons_self, .inr ?_⟩
    rw [List.erase_cons_head]
    exact closing_give held x

theorem ordered_give (held : List (Guard R)) (x : X) : Ordered rank (give held x : Prog E X) held := by
  induction held with
  | nil => rfl
  | cons g held ih =>
    refine ⟨List.mem_cons_self, ?_⟩
    rw [List.erase_cons_head]
    exact ih

theorem twoPhase_stop (held : List (Guard R)) (f : Fault) : TwoPhase q (stop held f : Prog E Reply) held := by
  cases f
  · exact twoPhase_give _ _
  · exact trivial

theorem ordered_stop (held : List (Guard R)) (f : Fault) : Ordered rank (stop held f : Prog E Reply) held := by
  cases f
  · exact ordered_give _ _
  · exact trivial

theorem closing_map (f : X → Y) (p : Prog E X) : ∀ held, Closing (p.map f) held ↔ Closing p held := by
  induction p with
  | lock => intro held; rfl
  | put => intro held; rfl
  | drop g k ih => intro held; exact and_congr_right fun _ => ih _
  | ret => intro held; rfl
  | panic => intro held; rfl

theorem twoPhase_map (f : X → Y) (p : Prog E X) : ∀ held, TwoPhase q (p.map f) held ↔ TwoPhase q p held := by
  induction p with
  | lock r m k ih => intro held; exact and_congr (forall_congr' fun v => ih _ _) (ih _ _)
  | put r v k ih => intro held; exact and_congr_right fun _ => ih _
  | drop g k ih =>
    intro held
    exact and_congr_right fun _ => or_congr (and_congr_right fun _ => and_congr_right fun _ => ih _) (closing_map f k _)
  | ret => intro held; rfl
  | panic => intro held; rfl

theorem ordered_map (f : X → Y) (p : Prog E X) : ∀ held, Ordered rank (p.map f) held ↔ Ordered rank p held := by
  induction p with
  | lock r m k ih => intro held; exact and_congr_right fun _ => and_congr (forall_congr' fun v => ih _ _) (ih _ _)
  | put r v k ih => intro held; exact and_congr_right fun _ => ih _
  | drop g k ih => intro held; exact and_congr_right fun _ => ih _
  | ret => intro held; rfl
  | panic => intro held; rfl

end Generic

variable {α : Type} [Add α] [Sub α] [Mul α] [Div α] [Neg α] [NumOps α] {q : Ref → Prop}

/-! ### Local to model -/

theorem twoPhase_ltm (add : Int → Int → Res Int) (torn : List (Mat4 α) → List (Mat4 α)) (j : LtmJob α) :
    TwoPhase q (ltmProg add torn j) [] := by
  unfold ltmProg
  split
  · rfl
  · split
    · rfl
    · refine ⟨?_, rfl⟩
      intro v
      dsimp only
      split
      · exact twoPhase_give _ _
      · refine ⟨?_, twoPhase_give _ _⟩
        intro w
        dsimp only
        split
        · exact ⟨List.mem_cons_self, twoPhase_give _ _⟩
        · exact twoPhase_give _ _
        · exact ⟨List.mem_cons_self, trivial⟩

theorem ordered_ltm (add : Int → Int → Res Int) (torn : List (Mat4 α) → List (Mat4 α)) (j : LtmJob α) :
    Ordered Ref.rank (ltmProg add torn j) [] := by
  unfold ltmProg
  split
  · rfl
  · split
    · rfl
    · refine ⟨by simp, ?_, rfl⟩
      intro v
      dsimp only
      split
      · exact ordered_give _ _
      · refine ⟨?_, ?_, ordered_give _ _⟩
        · simp [Ref.rank, Prod.Lex.toLex_lt_toLex]
        intro w
        dsimp only
        split
        · exact ⟨List.mem_cons_self, ordered_give _ _⟩
        · exact ordered_give _ _
        · exact ⟨List.mem_cons_self, trivial⟩

/-! ### Sampling -/

section
variable {α K3 KQ V3 VQ : Type} [Sampling.RatioOps α] (N : Sampling.Numerics α K3 KQ V3 VQ (SoaTransform α))
  (torn : List (SoaTransform α) → List (SoaTransform α)) (j : SamJob α K3 KQ)
  (context : Option (Sampling.Context α V3 VQ))

theorem twoPhase_sam : TwoPhase q (samProg N torn j context) [] := by
  unfold samProg
  split
  · refine ⟨?_, rfl⟩
    intro v
    dsimp only
    split
    · exact ⟨List.mem_cons_self, twoPhase_give _ _⟩
    · exact ⟨List.mem_cons_self, twoPhase_give _ _⟩
    · exact ⟨List.mem_cons_self, trivial⟩
  · rfl

theorem ordered_sam {ι : Type} [LT ι] (rank : Ref → ι) : Ordered rank (samProg N torn j context) [] := by
  unfold samProg
  split
  · refine ⟨by simp, ?_, rfl⟩
    intro v
    dsimp only
    split
    · exact ⟨List.mem_cons_self, ordered_give _ _⟩
    · exact ⟨List.mem_cons_self, ordered_give _ _⟩
    · exact ⟨List.mem_cons_self, trivial⟩
  · rfl

end

/-! ### Blending -/

section
variable (torn : List (SoaTransform α) → List (SoaTransform α))

theorem erase_layer (a b : Guard Ref) : ([a, b] : List (Guard Ref)).erase a = [b] := List.erase_cons_head ..

theorem twoPhase_blendLayers (o n : Nat) (k : Blending.Context α → List (SoaTransform α) → Prog (Elem α) (BlendReply α))
    (hk : ∀ c out, TwoPhase q (k c out) [(.soa o, .wr)]) (ls : List (BlendLayer α)) :
    (∀ l ∈ ls, q (.soa l.transform)) → ∀ c out, TwoPhase q (blendLayersProg o n torn ls c out k) [(.soa o, .wr)] := by
  induction ls with
  | nil => intro _ c out; exact hk c out
  | cons l ls ih =>
    intro hq c out
    have ih := ih (fun l' h => hq l' (List.mem_cons_of_mem _ h))
    refine ⟨?_, twoPhase_give _ _⟩
    intro v
    dsimp only
    split
    · exact twoPhase_give _ _
    · split
      · refine ⟨List.mem_cons_self, .inl ⟨rfl, hq l List.mem_cons_self, ?_⟩⟩
        rw [erase_layer]
        exact ih _ _
      · split
        · exact ⟨List.mem_cons_of_mem _ List.mem_cons_self, trivial⟩
        · refine ⟨List.mem_cons_of_mem _ List.mem_cons_self, List.mem_cons_self, .inl ⟨rfl, hq l List.mem_cons_self, ?_⟩⟩
          rw [erase_layer]
          exact ih _ _

theorem twoPhase_addLayers (o n : Nat) (c : Blending.Context α) (ls : List (BlendLayer α)) :
    (∀ l ∈ ls, q (.soa l.transform)) → ∀ out, TwoPhase q (addLayersProg o n torn c ls out) [(.soa o, .wr)] := by
  induction ls with
  | nil => intro _ out; exact twoPhase_give _ _
  | cons l ls ih =>
    intro hq out
    have ih := ih (fun l' h => hq l' (List.mem_cons_of_mem _ h))
    refine ⟨?_, twoPhase_give _ _⟩
    intro v
    dsimp only
    split
    · exact twoPhase_give _ _
    · split
      · exact ⟨List.mem_cons_of_mem _ List.mem_cons_self, trivial⟩
      · refine ⟨List.mem_cons_of_mem _ List.mem_cons_self, List.mem_cons_self, .inl ⟨rfl, hq l List.mem_cons_self, ?_⟩⟩
        rw [erase_layer]
        exact ih _

theorem twoPhase_blend (j : BlendJob α) (context : Option (Blending.Context α))
    (hq : ∀ l, l ∈ j.layers ∨ l ∈ j.additiveLayers → q (.soa l.transform)) :
    TwoPhase q (blendProg torn j context) [] := by
  unfold blendProg
  split
  · refine ⟨?_, rfl⟩
    intro v
    dsimp only
    split
    · refine twoPhase_blendLayers torn _ _ _ ?_ _ (fun l h => hq l (.inl h)) _ _
      intro c out
      split
      · exact ⟨List.mem_cons_self, trivial⟩
      · split
        · exact ⟨List.mem_cons_self, trivial⟩
        · exact ⟨List.mem_cons_self, twoPhase_addLayers torn _ _ _ _ (fun l h => hq l (.inr h)) _⟩
    · exact twoPhase_give _ _
  · rfl

variable {ι : Type} [LT ι] {rank : Ref → ι}

theorem ordered_blendLayers (o n : Nat) (k : Blending.Context α → List (SoaTransform α) → Prog (Elem α) (BlendReply α))
    (hk : ∀ c out, Ordered rank (k c out) [(.soa o, .wr)]) (ls : List (BlendLayer α)) :
    (∀ l ∈ ls, rank (.soa o) < rank (.soa l.transform)) →
    ∀ c out, Ordered rank (blendLayersProg o n torn ls c out k) [(.soa o, .wr)] := by
  induction ls with
  | nil => intro _ c out; exact hk c out
  | cons l ls ih =>
    intro hq c out
    have ih := ih (fun l' h => hq l' (List.mem_cons_of_mem _ h))
    refine ⟨?_, ?_, ordered_give _ _⟩
    · simpa using hq l List.mem_cons_self
    intro v
    dsimp only
    split
    · exact ordered_give _ _
    · split
      · refine ⟨List.mem_cons_self, ?_⟩
        rw [erase_layer]
        exact ih _ _
      · split
        · exact ⟨List.mem_cons_of_mem _ List.mem_cons_self, trivial⟩
        · refine ⟨List.mem_cons_of_mem _ List.mem_cons_self, List.mem_cons_self, ?_⟩
          rw [erase_layer]
          exact ih _ _

theorem ordered_addLayers (o n : Nat) (c : Blending.Context α) (ls : List (BlendLayer α)) :
    (∀ l ∈ ls, rank (.soa o) < rank (.soa l.transform)) →
    ∀ out, Ordered rank (addLayersProg o n torn c ls out) [(.soa o, .wr)] := by
  induction ls with
  | nil => intro _ out; exact ordered_give _ _
  | cons l ls ih =>
    intro hq out
    have ih := ih (fun l' h => hq l' (List.mem_cons_of_mem _ h))
    refine ⟨?_, ?_, ordered_give _ _⟩
    · simpa using hq l List.mem_cons_self
    intro v
    dsimp only
    split
    · exact ordered_give _ _
    · split
      · exact ⟨List.mem_cons_of_mem _ List.mem_cons_self, trivial⟩
      · refine ⟨List.mem_cons_of_mem _ List.mem_cons_self, List.mem_cons_self, ?_⟩
        rw [erase_layer]
        exact ih _

theorem ordered_blend (j : BlendJob α) (context : Option (Blending.Context α))
    (hq : ∀ o l, j.output = some o → l ∈ j.layers ∨ l ∈ j.additiveLayers → rank (.soa o) < rank (.soa l.transform)) :
    Ordered rank (blendProg torn j context) [] := by
  unfold blendProg
  split
  · rename_i ho
    refine ⟨by simp, ?_, rfl⟩
    intro v
    dsimp only
    split
    · refine ordered_blendLayers torn _ _ _ ?_ _ (fun l h => hq _ l ho (.inl h)) _ _
      intro c out
      split
      · exact ⟨List.mem_cons_self, trivial⟩
      · split
        · exact ⟨List.mem_cons_self, trivial⟩
        · exact ⟨List.mem_cons_self, ordered_addLayers torn _ _ _ _ (fun l h => hq _ l ho (.inr h)) _⟩
    · exact ordered_give _ _
  · rfl

end

/-! ### Skinning -/

section
omit [Add α] [Sub α] [Mul α] [Div α] [Neg α] [NumOps α]

variable {A : Type} {c : Nat → Ref} {get : ∀ n, Elem α (c n) → List A} {m : Mode} {miss : Fault} {b : Option Nat}
  {size : Nat} {held : List (Guard Ref)} {k : List A → List (Guard Ref) → Prog (Elem α) Reply}
  {ι : Type} [LT ι] {rank : Ref → ι}

theorem twoPhase_openBuf (hk : ∀ n, b = some n → ∀ xs, TwoPhase q (k xs ((c n, m) :: held)) ((c n, m) :: held)) :
    TwoPhase q (openBuf c get m miss b held k) held := by
  cases b with
  | none => exact twoPhase_stop _ _
  | some n => exact ⟨fun v => hk n rfl _, twoPhase_give _ _⟩

theorem ordered_openBuf (hr : ∀ n, b = some n → ∀ g ∈ held, rank g.1 < rank (c n))
    (hk : ∀ n, b = some n → ∀ xs, Ordered rank (k xs ((c n, m) :: held)) ((c n, m) :: held)) :
    Ordered rank (openBuf c get m miss b held k) held := by
  cases b with
  | none => exact ordered_stop _ _
  | some n => exact ⟨hr n rfl, fun v => hk n rfl _, ordered_give _ _⟩

theorem twoPhase_unpackBuf (hk : ∀ n, b = some n → ∀ xs, TwoPhase q (k xs ((c n, m) :: held)) ((c n, m) :: held)) :
    TwoPhase q (unpackBuf c get m b size held k) held := by
  refine twoPhase_openBuf (fun n hn xs => ?_)
  split
  · exact twoPhase_give _ _
  · exact hk n hn xs

theorem ordered_unpackBuf (hr : ∀ n, b = some n → ∀ g ∈ held, rank g.1 < rank (c n))
    (hk : ∀ n, b = some n → ∀ xs, Ordered rank (k xs ((c n, m) :: held)) ((c n, m) :: held)) :
    Ordered rank (unpackBuf c get m b size held k) held := by
  refine ordered_openBuf hr (fun n hn xs => ?_)
  split
  · exact ordered_give _ _
  · exact hk n hn xs

theorem twoPhase_attempt {β : Type} {r : Res β} {k : β → Prog (Elem α) Reply} (hk : ∀ x, TwoPhase q (k x) held) :
    TwoPhase q (attempt r held k) held := by
  cases r with
  | error f => exact twoPhase_stop _ _
  | ok x => exact hk x

theorem ordered_attempt {β : Type} {r : Res β} {k : β → Prog (Elem α) Reply} (hk : ∀ x, Ordered rank (k x) held) :
    Ordered rank (attempt r held k) held := by
  cases r with
  | error f => exact ordered_stop _ _
  | ok x => exact hk x

/-- The guards on the outputs are held. -/
def HoldsOuts (a : Skinning.Attrs) (j : SkinJob) (held : List (Guard Ref)) : Prop :=
  (∀ n, j.outPositions = some n → (.vec n, .wr) ∈ held) ∧
  (a.normals = true → ∀ n, j.outNormals = some n → (.vec n, .wr) ∈ held) ∧
  ((a.normals && a.tangents) = true → ∀ n, j.outTangents = some n → (.vec n, .wr) ∈ held)

theorem twoPhase_putIf {on : Bool} {b : Option Nat} {v : List (Skinning.P3 α)} {k : Prog (Elem α) Reply}
    (hm : on = true → ∀ n, b = some n → ((.vec n, .wr) : Guard Ref) ∈ held) (hk : TwoPhase q k held) :
    TwoPhase q (putIf on b v k) held := by
  unfold putIf
  split
  · exact ⟨hm rfl _ rfl, hk⟩
  · exact hk

theorem ordered_putIf {on : Bool} {b : Option Nat} {v : List (Skinning.P3 α)} {k : Prog (Elem α) Reply}
    (hm : on = true → ∀ n, b = some n → ((.vec n, .wr) : Guard Ref) ∈ held) (hk : Ordered rank k held) :
    Ordered rank (putIf on b v k) held := by
  unfold putIf
  split
  · exact ⟨hm rfl _ rfl, hk⟩
  · exact hk

theorem twoPhase_putOuts {a : Skinning.Attrs} {j : SkinJob} {o : Skinning.Outs α} {k : Prog (Elem α) Reply}
    (hh : HoldsOuts a j held) (hk : TwoPhase q k held) : TwoPhase q (putOuts a j o k) held :=
  twoPhase_putIf (fun _ => hh.1) (twoPhase_putIf hh.2.1 (twoPhase_putIf hh.2.2 hk))

theorem ordered_putOuts {a : Skinning.Attrs} {j : SkinJob} {o : Skinning.Outs α} {k : Prog (Elem α) Reply}
    (hh : HoldsOuts a j held) (hk : Ordered rank k held) : Ordered rank (putOuts a j o k) held :=
  ordered_putIf (fun _ => hh.1) (ordered_putIf hh.2.1 (ordered_putIf hh.2.2 hk))

theorem twoPhase_attrBufs {a : Skinning.Attrs} {j : SkinJob}
    {k : Skinning.Ins α → Skinning.Outs α → List (Guard Ref) → Prog (Elem α) Reply}
    (hk : ∀ ins outs held, HoldsOuts a j held → TwoPhase q (k ins outs held) held) :
    TwoPhase q (attrBufs a j held k) held := by
  obtain ⟨an, at_⟩ := a
  unfold attrBufs unpackBufIf
  refine twoPhase_unpackBuf (fun n1 h1 x1 => ?_)
  cases an <;> cases at_ <;> simp only [Bool.false_and, Bool.and_false, Bool.true_and, Bool.and_true, Bool.false_eq_true, if_false, if_true]
  · refine twoPhase_unpackBuf (fun n4 h4 x4 => hk _ _ _ ⟨?_, by simp, by simp⟩)
    intro n h; rw [h4] at h; cases h; simp
  · refine twoPhase_unpackBuf (fun n4 h4 x4 => hk _ _ _ ⟨?_, by simp, by simp⟩)
    intro n h; rw [h4] at h; cases h; simp
  · refine twoPhase_unpackBuf (fun n2 h2 x2 => ?_)
    refine twoPhase_unpackBuf (fun n4 h4 x4 => ?_)
    refine twoPhase_unpackBuf (fun n5 h5 x5 => hk _ _ _ ⟨?_, ?_, by simp⟩)
    · intro n h; rw [h4] at h; cases h; simp
    · intro _ n h; rw [h5] at h; cases h; simp
  · refine twoPhase_unpackBuf (fun n2 h2 x2 => ?_)
    refine twoPhase_unpackBuf (fun n3 h3 x3 => ?_)
    refine twoPhase_unpackBuf (fun n4 h4 x4 => ?_)
    refine twoPhase_unpackBuf (fun n5 h5 x5 => ?_)
    refine twoPhase_unpackBuf (fun n6 h6 x6 => hk _ _ _ ⟨?_, ?_, ?_⟩)
    · intro n h; rw [h4] at h; cases h; simp
    · intro _ n h; rw [h5] at h; cases h; simp
    · intro _ n h; rw [h6] at h; cases h; simp

end

theorem twoPhase_skinLoop {torn : Skinning.Outs α → Skinning.Outs α}
    {g : Skinning.Opened α → Nat → Res (Mat4 α × Option (Mat4 α))} {a : Skinning.Attrs} {j : SkinJob}
    {x : Skinning.Opened α} {held : List (Guard Ref)} (hh : HoldsOuts a j held) :
    TwoPhase q (skinLoop torn g a j x held) held := by
  unfold skinLoop
  split
  · exact twoPhase_putOuts hh trivial
  · exact twoPhase_putOuts hh (twoPhase_give _ _)
  · exact twoPhase_putOuts hh (twoPhase_give _ _)

theorem ordered_skinLoop {ι : Type} [LT ι] {rank : Ref → ι} {torn : Skinning.Outs α → Skinning.Outs α}
    {g : Skinning.Opened α → Nat → Res (Mat4 α × Option (Mat4 α))} {a : Skinning.Attrs} {j : SkinJob}
    {x : Skinning.Opened α} {held : List (Guard Ref)} (hh : HoldsOuts a j held) :
    Ordered rank (skinLoop torn g a j x held) held := by
  unfold skinLoop
  split
  · exact ordered_putOuts hh trivial
  · exact ordered_putOuts hh (ordered_give _ _)
  · exact ordered_putOuts hh (ordered_give _ _)

theorem twoPhase_skin1 (torn : Skinning.Outs α → Skinning.Outs α) (it : Bool) (a : Skinning.Attrs) (j : SkinJob) :
    TwoPhase q (skin1Prog torn it a j) [] := by
  refine twoPhase_openBuf (fun n1 h1 x1 => ?_)
  unfold itBuf
  split
  · refine twoPhase_openBuf (fun n2 h2 x2 => ?_)
    refine twoPhase_unpackBuf (fun n3 h3 x3 => ?_)
    exact twoPhase_attrBufs (fun ins outs held hh => twoPhase_skinLoop hh)
  · refine twoPhase_unpackBuf (fun n3 h3 x3 => ?_)
    exact twoPhase_attrBufs (fun ins outs held hh => twoPhase_skinLoop hh)

theorem twoPhase_skinN (ck : Bool) (torn : Skinning.Outs α → Skinning.Outs α) (n : Nat) (it : Bool)
    (a : Skinning.Attrs) (j : SkinJob) : TwoPhase q (skinNProg ck torn n it a j) [] := by
  refine twoPhase_openBuf (fun n1 h1 x1 => ?_)
  unfold itBuf
  split
  · refine twoPhase_openBuf (fun n2 h2 x2 => ?_)
    refine twoPhase_attempt (fun need => ?_)
    refine twoPhase_unpackBuf (fun n3 h3 x3 => ?_)
    refine twoPhase_attempt (fun need => ?_)
    refine twoPhase_unpackBuf (fun n4 h4 x4 => ?_)
    exact twoPhase_attrBufs (fun ins outs held hh => twoPhase_skinLoop hh)
  · refine twoPhase_attempt (fun need => ?_)
    refine twoPhase_unpackBuf (fun n3 h3 x3 => ?_)
    refine twoPhase_attempt (fun need => ?_)
    refine twoPhase_unpackBuf (fun n4 h4 x4 => ?_)
    exact twoPhase_attrBufs (fun ins outs held hh => twoPhase_skinLoop hh)

theorem twoPhase_skin (ck : Bool) (torn : Skinning.Outs α → Skinning.Outs α) (j : SkinJob) :
    TwoPhase q (skinProg ck torn j) [] := by
  unfold skinProg
  split
  · rfl
  · split
    · trivial
    · exact twoPhase_skin1 _ _ _ _
    · exact twoPhase_skinN _ _ _ _ _ _
    · exact twoPhase_skinN _ _ _ _ _ _

/-! Ordered -/

/-- Guards on buffers that are not of `Vec3`. -/
def Below (held : List (Guard Ref)) : Prop := ∀ g ∈ held, ∀ n, g.1.rank < Ref.rank (.vec n)

theorem rank_vec {m n : Nat} : Ref.rank (.vec m) < Ref.rank (.vec n) ↔ m < n := by
  simp [Ref.rank, Prod.Lex.toLex_lt_toLex]

omit [Add α] [Sub α] [Mul α] [Div α] [Neg α] [NumOps α] in
theorem ordered_attrBufs {a : Skinning.Attrs} {j : SkinJob} {held : List (Guard Ref)} (hb : Below held)
    (hv : Ascending [j.inPositions, j.inNormals, j.inTangents, j.outPositions, j.outNormals, j.outTangents])
    {k : Skinning.Ins α → Skinning.Outs α → List (Guard Ref) → Prog (Elem α) Reply}
    (hk : ∀ ins outs held, HoldsOuts a j held → Ordered Ref.rank (k ins outs held) held) :
    Ordered Ref.rank (attrBufs a j held k) held := by
  obtain ⟨an, at_⟩ := a
  have hb' : ∀ n, ∀ x y, (x, y) ∈ held → Ref.rank x < Ref.rank (.vec n) := fun n x y h => hb (x, y) h n
  simp only [Ascending, List.pairwise_cons, List.mem_cons, List.not_mem_nil, or_false, forall_eq_or_imp, forall_eq,
    Option.mem_def] at hv
  obtain ⟨⟨a12, a13, a14, a15, a16⟩, ⟨a23, a24, a25, a26⟩, ⟨a34, a35, a36⟩, ⟨a45, a46⟩, a56, -⟩ := hv
  unfold attrBufs unpackBufIf
  refine ordered_unpackBuf (fun n _ g hg => hb g hg n) (fun n1 h1 x1 => ?_)
  cases an <;> cases at_ <;> simp only [Bool.false_and, Bool.and_false, Bool.and_true, Bool.false_eq_true, if_false, if_true]
  · refine ordered_unpackBuf ?_ (fun n4 h4 x4 => hk _ _ _ ⟨?_, by simp, by simp⟩)
    · rintro n4 h4 ⟨x, y⟩ hg
      simp only [List.mem_cons, Prod.mk.injEq] at hg
      rcases hg with ⟨rfl, -⟩ | hg
      · exact rank_vec.2 (a14 _ h1 _ h4)
      · exact hb' _ _ _ hg
    intro n h; rw [h4] at h; cases h; simp
  · refine ordered_unpackBuf ?_ (fun n4 h4 x4 => hk _ _ _ ⟨?_, by simp, by simp⟩)
    · rintro n4 h4 ⟨x, y⟩ hg
      simp only [List.mem_cons, Prod.mk.injEq] at hg
      rcases hg with ⟨rfl, -⟩ | hg
      · exact rank_vec.2 (a14 _ h1 _ h4)
      · exact hb' _ _ _ hg
    intro n h; rw [h4] at h; cases h; simp
  · refine ordered_unpackBuf ?_ (fun n2 h2 x2 => ?_)
    · rintro n2 h2 ⟨x, y⟩ hg
      simp only [List.mem_cons, Prod.mk.injEq] at hg
      rcases hg with ⟨rfl, -⟩ | hg
      · exact rank_vec.2 (a12 _ h1 _ h2)
      · exact hb' _ _ _ hg
    refine ordered_unpackBuf ?_ (fun n4 h4 x4 => ?_)
    · rintro n4 h4 ⟨x, y⟩ hg
      simp only [List.mem_cons, Prod.mk.injEq] at hg
      rcases hg with ⟨rfl, -⟩ | ⟨rfl, -⟩ | hg
      · exact rank_vec.2 (a24 _ h2 _ h4)
      · exact rank_vec.2 (a14 _ h1 _ h4)
      · exact hb' _ _ _ hg
    refine ordered_unpackBuf ?_ (fun n5 h5 x5 => hk _ _ _ ⟨?_, ?_, by simp⟩)
    · rintro n5 h5 ⟨x, y⟩ hg
      simp only [List.mem_cons, Prod.mk.injEq] at hg
      rcases hg with ⟨rfl, -⟩ | ⟨rfl, -⟩ | ⟨rfl, -⟩ | hg
      · exact rank_vec.2 (a45 _ h4 _ h5)
      · exact rank_vec.2 (a25 _ h2 _ h5)
      · exact rank_vec.2 (a15 _ h1 _ h5)
      · exact hb' _ _ _ hg
    · intro n h; rw [h4] at h; cases h; simp
    · intro _ n h; rw [h5] at h; cases h; simp
  · refine ordered_unpackBuf ?_ (fun n2 h2 x2 => ?_)
    · rintro n2 h2 ⟨x, y⟩ hg
      simp only [List.mem_cons, Prod.mk.injEq] at hg
      rcases hg with ⟨rfl, -⟩ | hg
      · exact rank_vec.2 (a12 _ h1 _ h2)
      · exact hb' _ _ _ hg
    refine ordered_unpackBuf ?_ (fun n3 h3 x3 => ?_)
    · rintro n3 h3 ⟨x, y⟩ hg
      simp only [List.mem_cons, Prod.mk.injEq] at hg
      rcases hg with ⟨rfl, -⟩ | ⟨rfl, -⟩ | hg
      · exact rank_vec.2 (a23 _ h2 _ h3)
      · exact rank_vec.2 (a13 _ h1 _ h3)
      · exact hb' _ _ _ hg
    refine ordered_unpackBuf ?_ (fun n4 h4 x4 => ?_)
    · rintro n4 h4 ⟨x, y⟩ hg
      simp only [List.mem_cons, Prod.mk.injEq] at hg
      rcases hg with ⟨rfl, -⟩ | ⟨rfl, -⟩ | ⟨rfl, -⟩ | hg
      · exact rank_vec.2 (a34 _ h3 _ h4)
      · exact rank_vec.2 (a24 _ h2 _ h4)
      · exact rank_vec.2 (a14 _ h1 _ h4)
      · exact hb' _ _ _ hg
    refine ordered_unpackBuf ?_ (fun n5 h5 x5 => ?_)
    · rintro n5 h5 ⟨x, y⟩ hg
      simp only [List.mem_cons, Prod.mk.injEq] at hg
      rcases hg with ⟨rfl, -⟩ | ⟨rfl, -⟩ | ⟨rfl, -⟩ | ⟨rfl, -⟩ | hg
      · exact rank_vec.2 (a45 _ h4 _ h5)
      · exact rank_vec.2 (a35 _ h3 _ h5)
      · exact rank_vec.2 (a25 _ h2 _ h5)
      · exact rank_vec.2 (a15 _ h1 _ h5)
      · exact hb' _ _ _ hg
    refine ordered_unpackBuf ?_ (fun n6 h6 x6 => hk _ _ _ ⟨?_, ?_, ?_⟩)
    · rintro n6 h6 ⟨x, y⟩ hg
      simp only [List.mem_cons, Prod.mk.injEq] at hg
      rcases hg with ⟨rfl, -⟩ | ⟨rfl, -⟩ | ⟨rfl, -⟩ | ⟨rfl, -⟩ | ⟨rfl, -⟩ | hg
      · exact rank_vec.2 (a56 _ h5 _ h6)
      · exact rank_vec.2 (a46 _ h4 _ h6)
      · exact rank_vec.2 (a36 _ h3 _ h6)
      · exact rank_vec.2 (a26 _ h2 _ h6)
      · exact rank_vec.2 (a16 _ h1 _ h6)
      · exact hb' _ _ _ hg
    · intro n h; rw [h4] at h; cases h; simp
    · intro _ n h; rw [h5] at h; cases h; simp
    · intro _ n h; rw [h6] at h; cases h; simp

theorem skinOrdered_mats {j : SkinJob} (h : SkinOrdered j) {m n : Nat} (hm : j.matrices = some m)
    (hn : j.itMatrices = some n) : m < n := by
  have := h.1
  simp only [Ascending, List.pairwise_cons, List.mem_cons, List.not_mem_nil, or_false, forall_eq,
    Option.mem_def] at this
  exact this.1 _ hm _ hn

theorem ordered_skin1 (torn : Skinning.Outs α → Skinning.Outs α) (it : Bool) (a : Skinning.Attrs) (j : SkinJob)
    (hj : SkinOrdered j) : Ordered Ref.rank (skin1Prog torn it a j) [] := by
  refine ordered_openBuf (by simp) (fun n1 h1 x1 => ?_)
  unfold itBuf
  split
  · refine ordered_openBuf ?_ (fun n2 h2 x2 => ?_)
    · intro n2 h2
      simpa [Ref.rank, Prod.Lex.toLex_lt_toLex] using skinOrdered_mats hj h1 h2
    refine ordered_unpackBuf (by simp [Ref.rank, Prod.Lex.toLex_lt_toLex]) (fun n3 h3 x3 => ?_)
    exact ordered_attrBufs (by simp [Below, Ref.rank, Prod.Lex.toLex_lt_toLex]) hj.2 (fun ins outs held hh => ordered_skinLoop hh)
  · refine ordered_unpackBuf (by simp [Ref.rank, Prod.Lex.toLex_lt_toLex]) (fun n3 h3 x3 => ?_)
    exact ordered_attrBufs (by simp [Below, Ref.rank, Prod.Lex.toLex_lt_toLex]) hj.2 (fun ins outs held hh => ordered_skinLoop hh)

theorem ordered_skinN (ck : Bool) (torn : Skinning.Outs α → Skinning.Outs α) (n : Nat) (it : Bool)
    (a : Skinning.Attrs) (j : SkinJob) (hj : SkinOrdered j) : Ordered Ref.rank (skinNProg ck torn n it a j) [] := by
  refine ordered_openBuf (by simp) (fun n1 h1 x1 => ?_)
  unfold itBuf
  split
  · refine ordered_openBuf ?_ (fun n2 h2 x2 => ?_)
    · intro n2 h2
      simpa [Ref.rank, Prod.Lex.toLex_lt_toLex] using skinOrdered_mats hj h1 h2
    refine ordered_attempt (fun need => ?_)
    refine ordered_unpackBuf (by simp [Ref.rank, Prod.Lex.toLex_lt_toLex]) (fun n3 h3 x3 => ?_)
    refine ordered_attempt (fun need => ?_)
    refine ordered_unpackBuf (by simp [Ref.rank, Prod.Lex.toLex_lt_toLex]) (fun n4 h4 x4 => ?_)
    exact ordered_attrBufs (by simp [Below, Ref.rank, Prod.Lex.toLex_lt_toLex]) hj.2 (fun ins outs held hh => ordered_skinLoop hh)
  · refine ordered_attempt (fun need => ?_)
    refine ordered_unpackBuf (by simp [Ref.rank, Prod.Lex.toLex_lt_toLex]) (fun n3 h3 x3 => ?_)
    refine ordered_attempt (fun need => ?_)
    refine ordered_unpackBuf (by simp [Ref.rank, Prod.Lex.toLex_lt_toLex]) (fun n4 h4 x4 => ?_)
    exact ordered_attrBufs (by simp [Below, Ref.rank, Prod.Lex.toLex_lt_toLex]) hj.2 (fun ins outs held hh => ordered_skinLoop hh)

theorem ordered_skin (ck : Bool) (torn : Skinning.Outs α → Skinning.Outs α) (j : SkinJob) (hj : SkinOrdered j) :
    Ordered Ref.rank (skinProg ck torn j) [] := by
  unfold skinProg
  split
  · rfl
  · split
    · trivial
    · exact ordered_skin1 _ _ _ _ hj
    · exact ordered_skinN _ _ _ _ _ _ hj
    · exact ordered_skinN _ _ _ _ _ _ hj

end Ozz.Shared
