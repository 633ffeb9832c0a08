import Verif.Spec.SkinnedFrame

/-! Normals and tangents of an animated mesh: where an arrow should point. -/

namespace Ozz.Skinning

/-- Points on a line go to points on a line, in the same proportions. -/
def Straight (X : F4 ℝ → F4 ℝ) : Prop :=
  ∀ (x y z : F4 ℝ) (K : ℝ), (∀ c, c ≠ 3 → z c = x c + K * (y c - x c)) → ∀ r, r ≠ 3 → X z r = X x r + K * (X y r - X x r)

/-- Draw `v` as an arrow with its foot at `foot`, let the influences on vertex `i` move both ends: the arrow between them. -/
noncomputable def arrow (moves : Nat → F4 ℝ → F4 ℝ) (ix : List Nat) (ws : List ℝ) (n i : Nat) (foot v : P3 ℝ) : P3 ℝ :=
  averaged moves ix ws n i (foot + v) - averaged moves ix ws n i foot

end Ozz.Skinning
