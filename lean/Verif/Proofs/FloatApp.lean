import Verif.Proofs.FloatLocal

/-!
Counting roundings: `App x X B n e` says that the number `x` is the real `X` up to `n` units of `B / 2^24`, where `B` bounds `X`
and lies between `2^-e` and `2^e`. Sums and products of such numbers are such numbers.
-/

namespace Ozz.F32
open Ieee Spec

structure App (x : F32) (X B : ℝ) (n e : ℕ) : Prop where
  fin : Finite32 x.bits
  mag : |X| ≤ B
  err : |val x - X| ≤ B * (n / 2 ^ 24)
  lo : 1 / 2 ^ e ≤ B
  hi : B ≤ 2 ^ e

namespace App
variable {x y : F32} {X Y B C : ℝ} {n m e f : ℕ}

theorem pos (h : App x X B n e) : 0 < B := lt_of_lt_of_le (by positivity) h.lo

theorem exact_ (hf : Finite32 x.bits) (hB : |val x| ≤ B) (lo : 1 / 2 ^ e ≤ B) (hi : B ≤ 2 ^ e) : App x (val x) B 0 e :=
  ⟨hf, hB, by simp, lo, hi⟩

theorem val_le (h : App x X B n e) : |val x| ≤ B * (1 + n / 2 ^ 24) := by
  have := abs_add_le (val x - X) X
  rw [sub_add_cancel] at this
  linarith [h.mag, h.err]

theorem mono (h : App x X B n e) (hX : X = Y) (hB : B ≤ C) (hn : n ≤ m) (he : e ≤ f) (hC : C ≤ 2 ^ f) : App x Y C m f := by
  subst hX
  have hp := h.pos
  refine ⟨h.fin, h.mag.trans hB, h.err.trans ?_, ?_, hC⟩
  · have : (n : ℝ) ≤ m := by exact_mod_cast hn
    exact mul_le_mul hB (by gcongr) (by positivity) (by linarith)
  · refine le_trans ?_ (h.lo.trans hB)
    exact one_div_le_one_div_of_le (by positivity) (pow_le_pow_right₀ (by norm_num) he)

private theorem small {n : ℕ} (hn : n ≤ 2000) : (n : ℝ) / 2 ^ 24 ≤ 1 / 8000 := by
  have : (n : ℝ) ≤ 2000 := by exact_mod_cast hn
  rw [div_le_div_iff₀ (by norm_num) (by norm_num)]; norm_num; linarith

theorem pow_small (he : e ≤ 110) (hlo : 1 / 2 ^ e ≤ B) : (1 : ℝ) / 2 ^ 150 ≤ B * (1 / 1000 / 2 ^ 24) := by
  have h1 : (1 : ℝ) / 2 ^ 110 ≤ 1 / 2 ^ e := one_div_le_one_div_of_le (by positivity) (pow_le_pow_right₀ (by norm_num) he)
  have h2 := h1.trans hlo
  have : (1 : ℝ) / 2 ^ 110 * (1 / 1000 / 2 ^ 24) ≤ B * (1 / 1000 / 2 ^ 24) := by gcongr
  refine le_trans ?_ this
  norm_num

theorem pow_big (he : e ≤ 110) (hhi : B ≤ 2 ^ e) : B ≤ 2 ^ 110 :=
  hhi.trans (pow_le_pow_right₀ (by norm_num) he)

theorem mul (hx : App x X B n e) (hy : App y Y C m f) (hn : n ≤ 2000) (hm : m ≤ 2000) (he : e + f ≤ 110) :
    App (x * y) (X * Y) (B * C) (n + m + 2) (e + f) := by
  have hB := hx.pos
  have hC := hy.pos
  have lo : (1 : ℝ) / 2 ^ (e + f) ≤ B * C := by
    rw [pow_add, show (1 : ℝ) / (2 ^ e * 2 ^ f) = 1 / 2 ^ e * (1 / 2 ^ f) by field_simp]
    exact mul_le_mul hx.lo hy.lo (by positivity) hB.le
  have hi : B * C ≤ 2 ^ (e + f) := by
    rw [pow_add]; exact mul_le_mul hx.hi hy.hi hC.le (by positivity)
  have vx := hx.val_le
  have vy := hy.val_le
  have sn := small hn
  have sm := small hm
  have n0 : (0 : ℝ) ≤ n / 2 ^ 24 := by positivity
  have m0 : (0 : ℝ) ≤ m / 2 ^ 24 := by positivity
  have hP : |val x * val y| ≤ B * C * (1 + 3 / 8000) := by
    rw [abs_mul]
    refine (mul_le_mul vx vy (abs_nonneg _) (by positivity)).trans ?_
    rw [show B * (1 + n / 2 ^ 24) * (C * (1 + m / 2 ^ 24)) = B * C * ((1 + n / 2 ^ 24) * (1 + m / 2 ^ 24)) by ring]
    refine mul_le_mul_of_nonneg_left ?_ (by positivity)
    refine (mul_le_mul (add_le_add_right sn 1) (add_le_add_right sm 1) (by positivity) (by norm_num)).trans (by norm_num)
  obtain ⟨g, h1, -⟩ := mul_bound hx.fin hy.fin hP (by
    have := pow_big he hi
    norm_num at this ⊢; linarith)
  have h2 : |val x * val y - X * Y| ≤ B * C * (n / 2 ^ 24 + m / 2 ^ 24 + n / 2 ^ 24 * (m / 2 ^ 24)) := by
    have e1 : val x * val y - X * Y = val x * (val y - Y) + (val x - X) * Y := by ring
    rw [e1]
    refine (abs_add_le _ _).trans ?_
    rw [abs_mul, abs_mul]
    have a1 := mul_le_mul vx hy.err (abs_nonneg _) (by positivity)
    have a2 := mul_le_mul hx.err hy.mag (abs_nonneg _) (by positivity)
    refine (add_le_add a1 a2).trans (le_of_eq ?_)
    ring
  have hq : (n : ℝ) / 2 ^ 24 * (m / 2 ^ 24) ≤ 1 / 4 / 2 ^ 24 := by
    have hmm : (m : ℝ) ≤ 2000 := by exact_mod_cast hm
    have : (n : ℝ) / 2 ^ 24 * (m / 2 ^ 24) ≤ 1 / 8000 * (2000 / 2 ^ 24) := by gcongr
    refine this.trans (by norm_num)
  have hu := pow_small he lo
  refine ⟨g, ?_, ?_, lo, hi⟩
  · rw [abs_mul]; exact mul_le_mul hx.mag hy.mag (abs_nonneg _) hB.le
  · have e2 : val (x * y) - X * Y = (val (x * y) - val x * val y) + (val x * val y - X * Y) := by ring
    rw [e2]
    refine (abs_add_le _ _).trans ((add_le_add h1 h2).trans ?_)
    have k : B * C * ((n / 2 ^ 24 + m / 2 ^ 24 + n / 2 ^ 24 * (m / 2 ^ 24))) ≤ B * C * (n / 2 ^ 24 + m / 2 ^ 24 + 1 / 4 / 2 ^ 24) := by
      gcongr
    have k2 : (0 : ℝ) < B * C := by positivity
    push_cast
    refine (add_le_add (add_le_add le_rfl hu) k).trans ?_
    rw [show B * C * (1 + 3 / 8000) / 2 ^ 24 + B * C * (1 / 1000 / 2 ^ 24) + B * C * (n / 2 ^ 24 + m / 2 ^ 24 + 1 / 4 / 2 ^ 24) =
      B * C * ((n + m + (1 + 3 / 8000 + 1 / 1000 + 1 / 4)) / 2 ^ 24) by ring]
    refine mul_le_mul_of_nonneg_left ?_ k2.le
    gcongr
    norm_num

private theorem sum_aux (hx : App x X B n e) (hy : App y Y C m f) (hn : n ≤ 2000) (hm : m ≤ 2000) (he : max e f + 1 ≤ 110) :
    1 / 2 ^ (max e f + 1) ≤ B + C ∧ B + C ≤ 2 ^ (max e f + 1) ∧ |val x| + |val y| ≤ (B + C) * (1 + 1 / 8000) ∧
      |val x - X| + |val y - Y| ≤ (B + C) * (max (n : ℝ) m / 2 ^ 24) ∧ (B + C) * (1 + 1 / 8000) ≤ 2 ^ 127 := by
  have hB := hx.pos
  have hC := hy.pos
  have hi : B + C ≤ 2 ^ (max e f + 1) := by
    have h1 := hx.hi.trans (pow_le_pow_right₀ (by norm_num : (1:ℝ) ≤ 2) (le_max_left e f))
    have h2 := hy.hi.trans (pow_le_pow_right₀ (by norm_num : (1:ℝ) ≤ 2) (le_max_right e f))
    rw [pow_succ]; linarith
  refine ⟨?_, hi, ?_, ?_, ?_⟩
  · have h1 : (1 : ℝ) / 2 ^ (max e f + 1) ≤ 1 / 2 ^ e :=
      one_div_le_one_div_of_le (by positivity) (pow_le_pow_right₀ (by norm_num) (by omega))
    linarith [hx.lo]
  · have h1 := hx.val_le
    have h2 := hy.val_le
    have h3 := mul_le_mul_of_nonneg_left (add_le_add_right (small hn) 1) hB.le
    have h4 := mul_le_mul_of_nonneg_left (add_le_add_right (small hm) 1) hC.le
    linarith
  · have h1 : (n : ℝ) ≤ max (n : ℝ) m := le_max_left _ _
    have h2 : (m : ℝ) ≤ max (n : ℝ) m := le_max_right _ _
    have h3 : B * (n / 2 ^ 24) ≤ B * (max (n : ℝ) m / 2 ^ 24) := by gcongr
    have h4 : C * (m / 2 ^ 24) ≤ C * (max (n : ℝ) m / 2 ^ 24) := by gcongr
    linarith [hx.err, hy.err]
  · have := pow_big he hi
    norm_num at this ⊢; linarith

theorem add (hx : App x X B n e) (hy : App y Y C m f) (hn : n ≤ 2000) (hm : m ≤ 2000) (he : max e f + 1 ≤ 110) :
    App (x + y) (X + Y) (B + C) (max n m + 2) (max e f + 1) := by
  have hB := hx.pos
  have hC := hy.pos
  obtain ⟨lo, hi, hv, hs, hb⟩ := sum_aux hx hy hn hm he
  have hv' : |val x + val y| ≤ (B + C) * (1 + 1 / 8000) := (abs_add_le _ _).trans hv
  obtain ⟨g, h1⟩ := add_ok hx.fin hy.fin (hv'.trans hb)
  have h1' := h1.trans (div_le_div_of_nonneg_right hv' (show (0:ℝ) ≤ 2 ^ 24 by positivity))
  refine ⟨g, (abs_add_le _ _).trans (add_le_add hx.mag hy.mag), ?_, lo, hi⟩
  have e2 : val (x + y) - (X + Y) = (val (x + y) - (val x + val y)) + ((val x - X) + (val y - Y)) := by ring
  rw [e2]
  refine (abs_add_le _ _).trans ((add_le_add h1' ((abs_add_le _ _).trans hs)).trans ?_)
  push_cast
  rw [show (B + C) * (1 + 1 / 8000) / 2 ^ 24 + (B + C) * (max (n : ℝ) m / 2 ^ 24) = (B + C) * ((max (n : ℝ) m + (1 + 1 / 8000)) / 2 ^ 24) by ring]
  refine mul_le_mul_of_nonneg_left ?_ (by positivity)
  gcongr; norm_num

theorem sub (hx : App x X B n e) (hy : App y Y C m f) (hn : n ≤ 2000) (hm : m ≤ 2000) (he : max e f + 1 ≤ 110) :
    App (x - y) (X - Y) (B + C) (max n m + 2) (max e f + 1) := by
  have hB := hx.pos
  have hC := hy.pos
  obtain ⟨lo, hi, hv, hs, hb⟩ := sum_aux hx hy hn hm he
  have hv' : |val x - val y| ≤ (B + C) * (1 + 1 / 8000) := (abs_sub _ _).trans hv
  obtain ⟨g, h1⟩ := sub_ok hx.fin hy.fin (hv'.trans hb)
  have h1' := h1.trans (div_le_div_of_nonneg_right hv' (show (0:ℝ) ≤ 2 ^ 24 by positivity))
  refine ⟨g, (abs_sub _ _).trans (add_le_add hx.mag hy.mag), ?_, lo, hi⟩
  have e2 : val (x - y) - (X - Y) = (val (x - y) - (val x - val y)) + ((val x - X) - (val y - Y)) := by ring
  rw [e2]
  refine (abs_add_le _ _).trans ((add_le_add h1' ((abs_sub _ _).trans hs)).trans ?_)
  push_cast
  rw [show (B + C) * (1 + 1 / 8000) / 2 ^ 24 + (B + C) * (max (n : ℝ) m / 2 ^ 24) = (B + C) * ((max (n : ℝ) m + (1 + 1 / 8000)) / 2 ^ 24) by ring]
  refine mul_le_mul_of_nonneg_left ?_ (by positivity)
  gcongr; norm_num

end App
end Ozz.F32

namespace Ozz
open F32

/-- `App` in every lane. -/
def AppV (v : F4 F32) (V B : F4 ℝ) (n e : ℕ) : Prop := ∀ l, App (v l) (V l) (B l) n e

namespace AppV
variable {v w : F4 F32} {V W B C : F4 ℝ} {n m e f : ℕ}

theorem mul (hx : AppV v V B n e) (hy : AppV w W C m f) (hn : n ≤ 2000) (hm : m ≤ 2000) (he : e + f ≤ 110) :
    AppV (v * w) (V * W) (B * C) (n + m + 2) (e + f) := fun l => (hx l).mul (hy l) hn hm he

theorem add (hx : AppV v V B n e) (hy : AppV w W C m f) (hn : n ≤ 2000) (hm : m ≤ 2000) (he : max e f + 1 ≤ 110) :
    AppV (v + w) (V + W) (B + C) (max n m + 2) (max e f + 1) := fun l => (hx l).add (hy l) hn hm he

theorem sub (hx : AppV v V B n e) (hy : AppV w W C m f) (hn : n ≤ 2000) (hm : m ≤ 2000) (he : max e f + 1 ≤ 110) :
    AppV (v - w) (V - W) (B + C) (max n m + 2) (max e f + 1) := fun l => (hx l).sub (hy l) hn hm he

theorem f4 {x y z t : F32} {X Y Z T a b c d : ℝ} (h0 : App x X a n e) (h1 : App y Y b n e) (h2 : App z Z c n e) (h3 : App t T d n e) :
    AppV (Ozz.f4 x y z t) (Ozz.f4 X Y Z T) (Ozz.f4 a b c d) n e := by
  intro l
  match l with
  | 0 => exact h0
  | 1 => exact h1
  | 2 => exact h2
  | 3 => exact h3

theorem swz (h : AppV v V B n e) (i j k l : Fin 4) : AppV (Ozz.swz v i j k l) (Ozz.swz V i j k l) (Ozz.swz B i j k l) n e :=
  AppV.f4 (h i) (h j) (h k) (h l)

theorem swz2 (h : AppV v V B n e) (g : AppV w W C n e) (i j k l : Fin 8) :
    AppV (Ozz.swz2 v w i j k l) (Ozz.swz2 V W i j k l) (Ozz.swz2 B C i j k l) n e := by
  have p : ∀ i : Fin 8, App (pick v w i) (pick V W i) (pick B C i) n e := by
    intro i
    match i with
    | 0 => exact h 0
    | 1 => exact h 1
    | 2 => exact h 2
    | 3 => exact h 3
    | 4 => exact g 0
    | 5 => exact g 1
    | 6 => exact g 2
    | 7 => exact g 3
  exact AppV.f4 (p i) (p j) (p k) (p l)

end AppV
end Ozz
