import Verif.Spec.Exact

/-! Unfolding lemmas for exact arithmetic. -/

namespace Ozz

@[simp] theorem real_zero : (NumOps.zero : ℝ) = 0 := rfl
@[simp] theorem real_one : (NumOps.one : ℝ) = 1 := rfl
@[simp] theorem real_two : (NumOps.two : ℝ) = 2 := rfl
@[simp] theorem real_half : (NumOps.half : ℝ) = 1 / 2 := rfl
@[simp] theorem real_lit (n d : Nat) : (NumOps.lit n d : ℝ) = n / d := rfl
@[simp] theorem real_sqrt (x : ℝ) : NumOps.sqrt x = √x := rfl
@[simp] theorem real_abs (x : ℝ) : NumOps.abs x = |x| := rfl
@[simp] theorem real_max (x y : ℝ) : NumOps.max x y = max x y := rfl
@[simp] theorem real_min (x y : ℝ) : NumOps.min x y = min x y := rfl
@[simp] theorem real_lt (x y : ℝ) : NumOps.lt x y = decide (x < y) := rfl
@[simp] theorem real_le (x y : ℝ) : NumOps.le x y = decide (x ≤ y) := rfl
@[simp] theorem real_eq (x y : ℝ) : NumOps.eq x y = decide (x = y) := rfl

@[simp] theorem f4_0 {α : Type} (a b c d : α) : f4 a b c d 0 = a := rfl
@[simp] theorem f4_1 {α : Type} (a b c d : α) : f4 a b c d 1 = b := rfl
@[simp] theorem f4_2 {α : Type} (a b c d : α) : f4 a b c d 2 = c := rfl
@[simp] theorem f4_3 {α : Type} (a b c d : α) : f4 a b c d 3 = d := rfl

theorem four {p : Fin 4 → Prop} (h0 : p 0) (h1 : p 1) (h2 : p 2) (h3 : p 3) : ∀ i, p i := by
  intro ⟨i, hi⟩
  have : i = 0 ∨ i = 1 ∨ i = 2 ∨ i = 3 := by omega
  rcases this with rfl | rfl | rfl | rfl <;> assumption

theorem ext4 {α : Type} {f g : Fin 4 → α} (h0 : f 0 = g 0) (h1 : f 1 = g 1) (h2 : f 2 = g 2)
    (h3 : f 3 = g 3) : f = g := funext (four h0 h1 h2 h3)

end Ozz
