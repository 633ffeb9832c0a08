import Verif.Proofs.SkinnedFrame
import Verif.Props.FloatSkin
import Verif.Props.BlendedFrame
import Verif.Props.Frame

/-! Property theorems about skinned frames in single precision, from compressed keys to vertices: C92. -/

namespace Ozz.Props

open Ozz.Skinning
open Ieee Spec F32 Sampling Keys Frame BlendedFrame
open LocalToModel (localMatrices)

/-- C92: skinning with products of model matrices and inverse bind matrices. If each model matrix takes points near where `X` of the
joint takes them, the vertices end up near the average of where the inverse bind matrix and then `X` of each joint take them. -/
theorem C92_skinned {ck : Bool} {job : Skinning.Job F32} {state : Skinning.State F32} {models binds : List (Mat4 F32)} {ix : List Nat}
    {ws : List F32} {Ω : ℝ} (hmesh : MeshOk ck job state (List.zipWith Mat4.mul models binds) binds.length ix ws Ω)
    {μ τ a e β γ limit : ℝ} (hΩ : 1 ≤ Ω) (hμ : 1 ≤ μ) (hτ : 1 / 2 ^ 100 ≤ τ) (hβ : 1 ≤ β) (hγ : 0 ≤ γ)
    (ha : 0 ≤ a) (he : 0 ≤ e) (hlim0 : 1 ≤ limit) (hlim : Ω * (μ * (3 * (β * limit + γ)) + τ) ≤ 2 ^ 99)
    {X : Nat → F4 ℝ → F4 ℝ} (hmodels : ∀ i < binds.length, ∃ m, models[i]? = some m ∧ MovesNear m (X i) μ τ a e)
    (hbinds : ∀ b ∈ binds, Bind32Ok b β γ) :
    ∃ s', Skinning.run ck job state = .ok s' ∧
      MappedNear job.vertexCount
        (fun i p => averaged (fun k v => X k (((binds.map valMat).getD k 0).transformPoint v)) ix (ws.map val) job.influences i p)
        (fun p => 3 * Ω * (a * bound3 β γ p + e) + (6 * job.influences + 38) / 2 ^ 24 * (Ω * (μ * bound3 β γ p + τ)))
        limit job.inPositions s'.positions := by
  obtain ⟨hv, hb, hn, hm, hit, hix, hin, hw, hws⟩ := hmesh
  have Ω0 : 0 < Ω := by linarith
  have μ0 : 0 < μ := by linarith
  have β0 : 0 < β := by linarith
  have τ0 : 0 < τ := lt_of_lt_of_le (by positivity) hτ
  have hμβ : 1 ≤ μ * β := by nlinarith
  have hμγ : 0 ≤ μ * γ := by positivity
  have hμβl : μ * β ≤ μ * β * limit := by nlinarith
  have hX : μ * (3 * (β * limit + γ)) + τ ≤ 2 ^ 99 := by
    refine le_trans ?_ hlim
    have : 0 ≤ μ * (3 * (β * limit + γ)) + τ := by positivity
    nlinarith
  have hX' : 3 * (μ * β * limit) + 3 * (μ * γ) + τ ≤ 2 ^ 99 := by
    have : μ * (3 * (β * limit + γ)) + τ = 3 * (μ * β * limit) + 3 * (μ * γ) + τ := by ring
    rw [← this]; exact hX
  have h1 : μ * β ≤ 2 ^ 100 := by norm_num at hX' ⊢; linarith
  have h2 : μ * γ + τ ≤ 2 ^ 100 := by norm_num at hX' ⊢; linarith
  -- the products
  have hprod : ∀ i < binds.length, ∃ m b, models[i]? = some m ∧ binds[i]? = some b ∧ b ∈ binds ∧
      (List.zipWith Mat4.mul models binds)[i]? = some (m.mul b) ∧ MovesNear m (X i) μ τ a e := by
    intro i hi
    obtain ⟨m, h3, h4⟩ := hmodels i hi
    refine ⟨m, binds[i], h3, List.getElem?_eq_getElem hi, List.getElem_mem hi, ?_, h4⟩
    rw [List.getElem?_zipWith, h3, List.getElem?_eq_getElem hi]
  have hlen : (List.zipWith Mat4.mul models binds).length = binds.length := by
    rw [List.length_zipWith]
    refine min_eq_right ?_
    by_contra hc
    push Not at hc
    obtain ⟨m, h3, -⟩ := hmodels models.length hc
    rw [List.getElem?_eq_none le_rfl] at h3
    cases h3
  have hok : Matrices32Ok (List.zipWith Mat4.mul models binds) (301 / 100 * (μ * β)) (301 / 100 * (μ * γ) + 101 / 100 * τ) := by
    have key : ∀ q ∈ List.zipWith Mat4.mul models binds, Matrix32Ok q (301 / 100 * (μ * β)) (301 / 100 * (μ * γ) + 101 / 100 * τ) := by
      intro q hq
      obtain ⟨i, hi, rfl⟩ := List.getElem_of_mem hq
      rw [hlen] at hi
      obtain ⟨m, b, -, -, h5, h6, h7⟩ := hprod i hi
      have e := List.getElem?_eq_getElem (l := List.zipWith Mat4.mul models binds) (by rw [hlen]; exact hi)
      rw [h6] at e
      rw [← Option.some.inj e]
      exact (skin_matrix h7 (hbinds b h5) hμ hτ hβ hγ ha h1 h2).1
    exact ⟨fun q hq => (key q hq).finite, fun q hq => (key q hq).linear, fun q hq => (key q hq).translation⟩
  obtain ⟨s', hrun, hmap, -⟩ := C80_skinned ck job state (List.zipWith Mat4.mul models binds) (List.zipWith Mat4.mul models binds) ix ws hv hb hm
    (.inr ⟨hit, rfl⟩) hix
    ⟨fun k i h3 h4 => by rw [hlen]; exact hin k i h3 h4, fun _ h => absurd hit h⟩ hw hn (Ω := Ω) (μ := 301 / 100 * (μ * β))
    (τ := 301 / 100 * (μ * γ) + 101 / 100 * τ) (limit := limit) hΩ (by norm_num; linarith) (by norm_num at hτ ⊢; linarith)
    (by
      refine le_trans ?_ (le_trans hlim (by norm_num))
      nlinarith)
    (by
      have h3 := mul_le_mul_of_nonneg_left (show 301 / 100 * (μ * β) ≤ 2 * (μ * (3 * (β * limit + γ)) + τ) by nlinarith) Ω0.le
      norm_num at hlim ⊢
      linarith)
    (by
      have h3 := mul_le_mul_of_nonneg_left (show 301 / 100 * (μ * β) * limit + (301 / 100 * (μ * γ) + 101 / 100 * τ) ≤
        2 * (μ * (3 * (β * limit + γ)) + τ) by nlinarith) Ω0.le
      norm_num at hlim ⊢
      linarith)
    hok (fun _ => hok) hws
  refine ⟨s', hrun, ?_⟩
  obtain ⟨xs, ys, m1, m2, m3⟩ := hmap
  refine ⟨xs, ys, m1, m2, fun i p hi hp hf hl => ?_⟩
  obtain ⟨q, hq, h3⟩ := m3 i p hi hp hf hl
  refine ⟨q, hq, fun r => ⟨(h3 r).1, ?_⟩⟩
  have h4 := (h3 r).2
  have hvalid := valid_of_validate32 hv hb
  have hn0 : 0 < job.influences := hvalid.1
  set P := valP p with hP
  have hnorm : 0 ≤ norm1 P := by unfold norm1; positivity
  have hb3 : 0 ≤ bound3 β γ P := by unfold bound3; positivity
  set E := a * bound3 β γ P + e + 5 / 2 ^ 24 * (μ * bound3 β γ P + τ) with hE
  have E0 : 0 ≤ E := by positivity
  have h5 := averaged_near (ms := (List.zipWith Mat4.mul models binds).map valMat)
    (moves := fun k v => X k (((binds.map valMat).getD k 0).transformPoint v)) (ix := ix) (ws := ws.map val) (n := job.influences) (i := i)
    (p := P) (E := E) (W := 3 * Ω) E0 (influence_sum hn0 hi hΩ hws) (by
      intro k hk r hr
      have hlt : ix.getD (i * job.influences + k) 0 < binds.length := by
        obtain ⟨ix', h11, h12⟩ := hvalid.2.2.1
        rw [hix] at h11
        cases h11
        have h13 : i * job.influences + k < job.vertexCount * job.influences := by
          have : (i + 1) * job.influences ≤ job.vertexCount * job.influences := Nat.mul_le_mul_right _ hi
          rw [Nat.succ_mul] at this; omega
        have h14 : i * job.influences + k < ix.length := by omega
        refine hin _ _ h13 ?_
        rw [List.getD_eq_getElem?_getD, List.getElem?_eq_getElem h14]
        rfl
      obtain ⟨m, b, -, h7, h8, h9, h10⟩ := hprod _ hlt
      have e1 : joint ((List.zipWith Mat4.mul models binds).map valMat) ix job.influences i k = valMat (m.mul b) := by
        unfold joint
        rw [List.getD_eq_getElem?_getD, List.getElem?_map, h9]
        rfl
      have e2 : (binds.map valMat).getD (ix.getD (i * job.influences + k) 0) 0 = valMat b := by
        rw [List.getD_eq_getElem?_getD, List.getElem?_map, h7]
        rfl
      rw [e1]
      simp only [e2]
      exact (skin_matrix h10 (hbinds b h8) hμ hτ hβ hγ ha h1 h2).2 P r hr) r
  have h6 := abs_sub_le (val (q r)) (skinned ((List.zipWith Mat4.mul models binds).map valMat) ix (ws.map val) job.influences i P 1 r)
    (averaged (fun k v => X k (((binds.map valMat).getD k 0).transformPoint v)) ix (ws.map val) job.influences i P r)
  refine h6.trans ((add_le_add h4 h5).trans ?_)
  set Z := Ω * (μ * bound3 β γ P + τ) with hZ
  have hZτ : τ ≤ Z := by
    have : 0 ≤ μ * bound3 β γ P := by positivity
    nlinarith
  have hn1 : (0:ℝ) ≤ job.influences := Nat.cast_nonneg _
  have h7 : Ω * (301 / 100 * (μ * β) * norm1 P + (301 / 100 * (μ * γ) + 101 / 100 * τ)) ≤ 101 / 100 * Z := by
    have e1 : 101 / 100 * Z - Ω * (301 / 100 * (μ * β) * norm1 P + (301 / 100 * (μ * γ) + 101 / 100 * τ)) =
      Ω * (2 / 100 * (μ * β * norm1 P) + 2 / 100 * (μ * γ)) := by
      rw [hZ]; unfold bound3; ring
    have e2 : 0 ≤ Ω * (2 / 100 * (μ * β * norm1 P) + 2 / 100 * (μ * γ)) := by positivity
    linarith
  have h8 := mul_le_mul_of_nonneg_left h7 (show (0:ℝ) ≤ (5 * job.influences + 21) / 2 ^ 24 by positivity)
  have h9 : 3 * Ω * E = 3 * Ω * (a * bound3 β γ P + e) + 15 / 2 ^ 24 * Z := by rw [hE, hZ]; ring
  have h10 : (1:ℝ) / 2 ^ 147 ≤ 1 / 2 ^ 47 * Z := by
    calc (1:ℝ) / 2 ^ 147 = 1 / 2 ^ 47 * (1 / 2 ^ 100) := by norm_num
      _ ≤ _ := mul_le_mul_of_nonneg_left (hτ.trans hZτ) (by positivity)
  have h11 : ((5 * job.influences + 21) / 2 ^ 24 * (101 / 100) + 15 / 2 ^ 24 + 1 / 2 ^ 47) * Z ≤ (6 * job.influences + 38) / 2 ^ 24 * Z := by
    refine mul_le_mul_of_nonneg_right ?_ (τ0.le.trans hZτ)
    norm_num
    linarith
  have h12 : (5 * (job.influences : ℝ) + 21) / 2 ^ 24 * (101 / 100 * Z) + (15 / 2 ^ 24 * Z) + 1 / 2 ^ 47 * Z =
    ((5 * job.influences + 21) / 2 ^ 24 * (101 / 100) + 15 / 2 ^ 24 + 1 / 2 ^ 47) * Z := by ring
  rw [h9]
  linarith

/-- C92: a pose that undoes the inverse bind matrices leaves the vertices where they are. -/
theorem C92_rest {moves : Nat → F4 ℝ → F4 ℝ} {ix : List Nat} (ws : List ℝ) {n i : Nat} {p : P3 ℝ} (hn : 0 < n)
    (h : ∀ k < n, ∀ r : Fin 3, moves (ix.getD (i * n + k) 0) (vertex p) r.castSucc = p r) : averaged moves ix ws n i p = p := by
  funext r
  unfold averaged
  rw [Finset.sum_congr rfl fun k hk => by rw [h k (Finset.mem_range.mp hk) r], ← Finset.sum_mul, influence_one ws hn, one_mul]

/-- The model matrices that come out of a frame can be used for skinning. -/
theorem frame_mesh {ck : Bool} {job : Skinning.Job F32} {state : Skinning.State F32} {models binds : List (Mat4 F32)}
    {ix : List Nat} {ws : List F32} {Ω : ℝ} (hmesh : MeshOk ck job state (List.zipWith Mat4.mul models binds) binds.length ix ws Ω)
    {root : Mat4 F32} {pose : Nat → JointPose} {path : Nat → List Nat} {s B ρ T θ β γ limit : ℝ} {D : ℕ} (hs : 1 ≤ s)
    (hB : 1 / 2 ^ 100 ≤ B) (hρ : 1 ≤ ρ) (hroot : Root32Ok root ρ T) (hθ : 0 ≤ θ) (hD1 : 1 ≤ D) (hΩ : 1 ≤ Ω) (hβ : 1 ≤ β) (hγ : 0 ≤ γ)
    (hlim0 : 1 ≤ limit) (hbinds : ∀ b ∈ binds, Bind32Ok b β γ) (hg : (1 + θ) ^ D ≤ 2)
    (hlim : Ω * (2 * (ρ * s ^ D) * (3 * (β * limit + γ)) + 2 * reach s B ρ T D) ≤ 2 ^ 99) (hpath : ∀ i < binds.length, (path i).length ≤ D)
    (hmodels : ∀ i < binds.length, ∃ m, models[i]? = some m ∧ ((1 + θ) ^ (path i).length ≤ 2 → s ≤ 2 ^ 100 →
      ρ * s ^ (path i).length ≤ 2 ^ 100 → reach s B ρ T (path i).length ≤ 2 ^ 100 →
        Matrix32Ok m (2 * (ρ * s ^ (path i).length)) (2 * reach s B ρ T (path i).length) ∧
        ∀ p : F4 ℝ, ∃ x : F4 ℝ, pureQuat x = moveAlong pose (path i) (pureQuat p) ∧ ∀ r, r ≠ 3 →
          |(valMat m).transformPoint p r - (valMat root).transformPoint x r| ≤
            (ρ * s ^ (path i).length * len (p 0) (p 1) (p 2) + reach s B ρ T (path i).length) * ((1 + θ) ^ (path i).length - 1))) :
    ∃ s', Skinning.run ck job state = .ok s' ∧
      MappedNear job.vertexCount (fun i p => averaged (carried root pose path binds) ix (ws.map val) job.influences i p)
        (fun p => Ω * (ρ * s ^ D * bound3 β γ p + reach s B ρ T D) * (3 * ((1 + θ) ^ D - 1) + (12 * job.influences + 76) / 2 ^ 24))
        limit job.inPositions s'.positions := by
  have B0 : 0 < B := lt_of_lt_of_le (by positivity) hB
  have T0 : 0 ≤ T := (abs_nonneg _).trans (hroot.translation 0 (by decide))
  have sD : 1 ≤ s ^ D := one_le_pow₀ hs
  have R1 : 1 ≤ ρ * s ^ D := by nlinarith
  have hreach : B ≤ reach s B ρ T D := by
    refine le_trans ?_ (reach_mono hs B0.le hρ hD1)
    unfold reach
    rw [Finset.sum_range_one, pow_zero, mul_one]
    nlinarith
  have hq : 1 ≤ β * limit := by nlinarith
  have hbig : 2 * (ρ * s ^ D) * 3 + 2 * reach s B ρ T D ≤ 2 ^ 99 := by
    refine le_trans ?_ hlim
    have h1 : 2 * (ρ * s ^ D) * 3 ≤ 2 * (ρ * s ^ D) * (3 * (β * limit + γ)) := mul_le_mul_of_nonneg_left (by linarith) (by linarith)
    have h2 : 0 ≤ 2 * (ρ * s ^ D) * (3 * (β * limit + γ)) + 2 * reach s B ρ T D := by linarith
    nlinarith
  have hs100 : s ≤ 2 ^ 100 := by
    have h1 : s ≤ s ^ D := by
      calc s = s ^ 1 := (pow_one s).symm
        _ ≤ s ^ D := pow_le_pow_right₀ hs hD1
    have h2 : s ^ D ≤ ρ * s ^ D := by nlinarith
    norm_num at hbig ⊢
    linarith
  have G1 : (1:ℝ) ≤ (1 + θ) ^ D := one_le_pow₀ (by linarith)
  obtain ⟨s', h1, xs, ys, h2, h3, h4⟩ := C92_skinned hmesh (μ := 2 * (ρ * s ^ D)) (τ := 2 * reach s B ρ T D) (a := ρ * s ^ D * ((1 + θ) ^ D - 1))
    (e := reach s B ρ T D * ((1 + θ) ^ D - 1)) (β := β) (γ := γ) (limit := limit) hΩ (by linarith) (by linarith) hβ hγ
    (mul_nonneg (by linarith) (by linarith)) (mul_nonneg (by linarith) (by linarith)) hlim0 hlim
    (X := fun i p => (valMat root).transformPoint (spot (moveAlong pose (path i) (pureQuat p))))
    (fun i hi => by
      obtain ⟨m, h1, h2⟩ := hmodels i hi
      have hl := hpath i hi
      have e1 : (1 + θ) ^ (path i).length ≤ (1 + θ) ^ D := pow_le_pow_right₀ (by linarith) hl
      have e2 := mul_le_mul_of_nonneg_left (pow_le_pow_right₀ hs hl) (show 0 ≤ ρ by linarith)
      have e3 := reach_mono (T := T) hs B0.le hρ hl
      obtain ⟨h3, h4⟩ := h2 (e1.trans hg) hs100 (by norm_num at hbig ⊢; linarith) (by norm_num at hbig ⊢; linarith)
      exact ⟨m, h1, moves_near hs B0.le hρ T0 hθ hl h3 h4⟩)
    hbinds
  refine ⟨s', h1, xs, ys, h2, h3, fun i p hi hp hf hl => ?_⟩
  obtain ⟨q, h5, h6⟩ := h4 i p hi hp hf hl
  refine ⟨q, h5, fun r => ⟨(h6 r).1, (h6 r).2.trans (le_of_eq ?_)⟩⟩
  ring

/-- C92: a mesh moved by an animation. Sample the animation at any ratio through a context with any history, compute the model
matrices, multiply them with the inverse bind matrices and skin: everything succeeds, and every vertex is close to the average of
where the exact poses on the way to its joints would take it. -/
theorem C92_frame {anims : Nat → Option (Animation F32 Float3Key QuatKey)} {n : Nat}
    (hst : StoreOk F32.zero F32.one ((n + 3) / 4) anims) {c : Context F32 (SoaVec3 F32) (SoaQuat F32)}
    (hc : Reached codeNumerics F32.zero F32.one anims n c) {addr : Nat} {a : Animation F32 Float3Key QuatKey}
    (ha : anims addr = some a) {M s ρ T : ℝ} (hM : 1 / 2 ^ 60 ≤ M) (hs : 1 ≤ s) (hok : Animation32Ok a M s)
    (hn : (a.numTracks + 3) / 4 = (n + 3) / 4) {r : F32} (hr : Unit01 r) {out : List (SoaTransform F32)}
    (hout : (n + 3) / 4 ≤ out.length)
    (j : LocalToModel.Job (SoaTransform F32) (Mat4 F32)) (models : List (Mat4 F32)) (hp : ParentsFirst j.parents)
    (hlen : j.parents.length ≤ a.numTracks) (hmodels : j.parents.length ≤ models.length)
    (hρ : 1 ≤ ρ) (hroot : Root32Ok j.root ρ T) (hf1 : -(2:Int)^31 ≤ j.from_) (hf2 : j.from_ < 0)
    (ht1 : (j.parents.length : Int) ≤ j.to + 1) (ht2 : j.to < 2^31 - 1)
    {D : ℕ} (hD1 : 1 ≤ D) (hD : ∀ i path, PathTo j.parents i path → path.length ≤ D) (hg : (1 + 1 / 2 ^ 14 : ℝ) ^ D ≤ 2)
    {binds : List (Mat4 F32)} (hb : binds.length = j.parents.length) {β γ : ℝ} (hβ : 1 ≤ β) (hγ : 0 ≤ γ)
    (hbinds : ∀ b ∈ binds, Bind32Ok b β γ) :
    ∃ c' out' models' pose path, Sampling.run codeNumerics a addr r c out = .ok (c', out') ∧
      LocalToModel.run Mat4.mul localMatrices { j with input := out' } models = .ok models' ∧ models'.length = models.length ∧
      (∀ i < j.parents.length, ExactPose a i r (pose i) ∧ PathTo j.parents i (path i)) ∧
      ∀ {ck : Bool} {job : Skinning.Job F32} {state : Skinning.State F32} {ix : List Nat} {ws : List F32} {Ω limit : ℝ},
        MeshOk ck job state (List.zipWith Mat4.mul models' binds) j.parents.length ix ws Ω → 1 ≤ Ω → 1 ≤ limit →
        Ω * (2 * (ρ * s ^ D) * (3 * (β * limit + γ)) + 2 * reach s (2 * M) ρ T D) ≤ 2 ^ 99 →
        ∃ s', Skinning.run ck job state = .ok s' ∧
          MappedNear job.vertexCount (fun i p => averaged (carried j.root pose path binds) ix (ws.map val) job.influences i p)
            (fun p => Ω * (ρ * s ^ D * bound3 β γ p + reach s (2 * M) ρ T D) *
              (3 * ((1 + 1 / 2 ^ 14) ^ D - 1) + (12 * job.influences + 76) / 2 ^ 24))
            limit job.inPositions s'.positions := by
  obtain ⟨c', out', models', h1, h2, hml, pose, h3, h4⟩ := C83_frame hst hc ha hM hs hok hn hr hout j models hp hlen hmodels hρ hroot
    hf1 hf2 ht1 ht2
  have hex : ∀ i, ∃ path, i < j.parents.length → PathTo j.parents i path := by
    intro i
    by_cases hi : i < j.parents.length
    · obtain ⟨m, path, -, h, -⟩ := h4 i hi
      exact ⟨path, fun _ => h⟩
    · exact ⟨[], fun h => absurd h hi⟩
  choose path hpath using hex
  refine ⟨c', out', models', pose, path, h1, h2, hml, fun i hi => ⟨h3 i hi, hpath i hi⟩, ?_⟩
  intro ck job state ix ws Ω limit hmesh hΩ hlim0 hlim
  rw [← hb] at hmesh
  refine frame_mesh hmesh hs (show 1 / 2 ^ 100 ≤ 2 * M from le_trans (by norm_num) (hM.trans (by linarith [(show (0:ℝ) < 1 / 2 ^ 60 by positivity)])))
    hρ hroot (by norm_num) hD1 hΩ hβ hγ hlim0 hbinds hg hlim (fun i hi => hD i _ (hpath i (hb ▸ hi))) (fun i hi => ?_)
  obtain ⟨m, path', h5, h6, h7⟩ := h4 i (hb ▸ hi)
  cases LocalToModel.pathTo_unique h6 (hpath i (hb ▸ hi))
  exact ⟨m, h5, h7⟩

/-- C92: an animation without scale, the identity as root matrix, at most `D ≤ 1024` joints on a path. -/
theorem C92_rigid {anims : Nat → Option (Animation F32 Float3Key QuatKey)} {n : Nat}
    (hst : StoreOk F32.zero F32.one ((n + 3) / 4) anims) {c : Context F32 (SoaVec3 F32) (SoaQuat F32)}
    (hc : Reached codeNumerics F32.zero F32.one anims n c) {addr : Nat} {a : Animation F32 Float3Key QuatKey}
    (ha : anims addr = some a) {M : ℝ} (hM : 1 / 2 ^ 60 ≤ M) (hok : Animation32Ok a M 1)
    (hn : (a.numTracks + 3) / 4 = (n + 3) / 4) {r : F32} (hr : Unit01 r) {out : List (SoaTransform F32)}
    (hout : (n + 3) / 4 ≤ out.length)
    (j : LocalToModel.Job (SoaTransform F32) (Mat4 F32)) (models : List (Mat4 F32)) (hp : ParentsFirst j.parents)
    (hlen : j.parents.length ≤ a.numTracks) (hmodels : j.parents.length ≤ models.length)
    (hroot : ∀ c r, Finite32 (j.root c r).bits ∧ val (j.root c r) = if c = r then 1 else 0)
    (hf1 : -(2:Int)^31 ≤ j.from_) (hf2 : j.from_ < 0) (ht1 : (j.parents.length : Int) ≤ j.to + 1) (ht2 : j.to < 2^31 - 1)
    {D : ℕ} (hD1 : 1 ≤ D) (hD2 : D ≤ 1024) (hD : ∀ i path, PathTo j.parents i path → path.length ≤ D)
    {binds : List (Mat4 F32)} (hb : binds.length = j.parents.length) {β γ : ℝ} (hβ : 1 ≤ β) (hγ : 0 ≤ γ)
    (hbinds : ∀ b ∈ binds, Bind32Ok b β γ) :
    ∃ c' out' models' pose path, Sampling.run codeNumerics a addr r c out = .ok (c', out') ∧
      LocalToModel.run Mat4.mul localMatrices { j with input := out' } models = .ok models' ∧ models'.length = models.length ∧
      (∀ i < j.parents.length, ExactPose a i r (pose i) ∧ PathTo j.parents i (path i)) ∧
      ∀ {ck : Bool} {job : Skinning.Job F32} {state : Skinning.State F32} {ix : List Nat} {ws : List F32} {Ω limit : ℝ},
        MeshOk ck job state (List.zipWith Mat4.mul models' binds) j.parents.length ix ws Ω → 1 ≤ Ω → 1 ≤ limit →
        Ω * (β * limit + γ + D * M) ≤ 2 ^ 96 →
        ∃ s', Skinning.run ck job state = .ok s' ∧
          MappedNear job.vertexCount (fun i p => averaged (carried j.root pose path binds) ix (ws.map val) job.influences i p)
            (fun p => Ω * (bound3 β γ p + 2 * D * M) * (3 * D / 2 ^ 13 + (12 * job.influences + 76) / 2 ^ 24))
            limit job.inPositions s'.positions := by
  have hd' : (D : ℝ) ≤ 1024 := by exact_mod_cast hD2
  have hd1 : (1 : ℝ) ≤ D := by exact_mod_cast hD1
  have hg := compound14 hD2
  have M0 : 0 < M := lt_of_lt_of_le (by positivity) hM
  have hreach : reach 1 (2 * M) 1 0 D = D * (2 * M) := by simp [reach, mul_comm]
  obtain ⟨c', out', models', pose, path, h1, h2, h3, h4, h5⟩ := C92_frame hst hc ha hM le_rfl hok hn hr hout j models hp hlen hmodels le_rfl
    (eye_root hroot) hf1 hf2 ht1 ht2 hD1 hD
    (by have : (D : ℝ) / 2 ^ 13 ≤ 1 := by rw [div_le_one (by positivity)]; norm_num; linarith
        linarith) hb hβ hγ hbinds
  refine ⟨c', out', models', pose, path, h1, h2, h3, h4, ?_⟩
  intro ck job state ix ws Ω limit hmesh hΩ hlim0 hlim
  obtain ⟨s', e1, xs, ys, e2, e3, e4⟩ := h5 hmesh hΩ hlim0 (by
    rw [hreach, one_pow, mul_one]
    have h6 : Ω * (2 * 1 * (3 * (β * limit + γ)) + 2 * (D * (2 * M))) ≤ Ω * (8 * (β * limit + γ + D * M)) := by
      refine mul_le_mul_of_nonneg_left ?_ (by linarith)
      have h7 : 0 ≤ β * limit := mul_nonneg (by linarith) (by linarith)
      have h8 : 0 ≤ (D:ℝ) * M := by positivity
      linarith
    norm_num at hlim h6 ⊢
    linarith)
  refine ⟨s', e1, xs, ys, e2, e3, fun i p hi hp hf hl => ?_⟩
  obtain ⟨q, e5, e6⟩ := e4 i p hi hp hf hl
  refine ⟨q, e5, fun r => ⟨(e6 r).1, (e6 r).2.trans ?_⟩⟩
  beta_reduce
  rw [hreach, one_pow, mul_one, one_mul, show (D:ℝ) * (2 * M) = 2 * D * M by ring]
  have hb3 : 0 ≤ bound3 β γ (valP p) := by
    have : 0 ≤ norm1 (valP p) := by unfold norm1; positivity
    unfold bound3
    have : 0 ≤ β * norm1 (valP p) := mul_nonneg (by linarith) this
    linarith
  refine mul_le_mul_of_nonneg_left ?_ (by positivity)
  rw [show (3:ℝ) * D / 2 ^ 13 = 3 * (D / 2 ^ 13) by ring]
  linarith

/-- C92: a mesh moved by a blend of animations. -/
theorem C92_blended {anims : Nat → Option (Animation F32 Float3Key QuatKey)} {n : Nat}
    (hst : StoreOk F32.zero F32.one ((n + 3) / 4) anims) {plays : List Play} {M s S ρ T : ℝ}
    (hM : 1 / 2 ^ 50 ≤ M) (hM2 : M ≤ 2 ^ 50) (hs : 1 ≤ s) (hs2 : s ≤ 2 ^ 50) (hS : s * (1 + (plays.length + 1) / 2 ^ 20) ≤ S)
    (j : LocalToModel.Job (SoaTransform F32) (Mat4 F32)) (hplays : ∀ p ∈ plays, PlayOk anims n j.parents.length M s p)
    (hcount : plays.length < 512) {thr : F32} (hthr : Finite32 thr.bits) (hthr1 : 1 / 2 ^ 40 ≤ val thr) (hthr2 : val thr ≤ 2 ^ 40)
    (hweight : ∀ i < j.parents.length, (plays.map fun p => p.jointWeight i).sum ≤ 2 ^ 40)
    {rest : List (SoaTransform F32)} (hrl : rest.length = (j.parents.length + 3) / 4)
    (hrest : ∀ i < j.parents.length, ∀ r, rest[i / 4]? = some r → Blending.Pose32Ok r (laneOf i) s M)
    (ctx : Blending.Context F32) {buf : List (SoaTransform F32)} (hbuf : rest.length ≤ buf.length)
    (hsome : (∃ p ∈ plays, 0 < val p.weight) ∨ buf.length = rest.length)
    (models : List (Mat4 F32)) (hp : ParentsFirst j.parents) (hmodels : j.parents.length ≤ models.length)
    (hρ : 1 ≤ ρ) (hroot : Root32Ok j.root ρ T) (hf1 : -(2:Int)^31 ≤ j.from_) (hf2 : j.from_ < 0)
    (ht1 : (j.parents.length : Int) ≤ j.to + 1) (ht2 : j.to < 2^31 - 1)
    {D : ℕ} (hD1 : 1 ≤ D) (hD : ∀ i path, PathTo j.parents i path → path.length ≤ D)
    (hg : (1 + blendError (plays.length + 1)) ^ D ≤ 2)
    {binds : List (Mat4 F32)} (hb : binds.length = j.parents.length) {β γ : ℝ} (hβ : 1 ≤ β) (hγ : 0 ≤ γ)
    (hbinds : ∀ b ∈ binds, Bind32Ok b β γ) :
    ∃ (sampled : Play → List (SoaTransform F32)) (ctx' : Blending.Context F32) (pose : List (SoaTransform F32)) (models' : List (Mat4 F32)),
      (∀ p ∈ plays, ∃ c', Sampling.run codeNumerics p.animation p.addr p.ratio p.context p.buffer = .ok (c', sampled p)) ∧
      Blending.run ⟨some rest, thr, plays.map fun p => p.layer (sampled p), []⟩ ⟨some ctx, some (.ok buf)⟩ =
        .ok ⟨some ctx', some (.ok pose)⟩ ∧
      LocalToModel.run Mat4.mul localMatrices { j with input := pose } models = .ok models' ∧ models'.length = models.length ∧
      ∃ (exact : Play → Nat → JointPose) (restPose blend : Nat → JointPose) (path : Nat → List Nat),
        (∀ p ∈ plays, ∀ i < j.parents.length, ExactPose p.animation i p.ratio (exact p i)) ∧
        (∀ i < j.parents.length, jointPose (rest.map valTransform) i = some (restPose i) ∧
          ExactBlend ((12 * (plays.length + 1) + 640) / 2 ^ 24 * max (val thr) (plays.map fun p => p.jointWeight i).sum)
            (blendParts (val thr) plays exact (restPose i) i) (blend i) ∧ PathTo j.parents i (path i)) ∧
        ∀ {ck : Bool} {job : Skinning.Job F32} {state : Skinning.State F32} {ix : List Nat} {ws : List F32} {Ω limit : ℝ},
          MeshOk ck job state (List.zipWith Mat4.mul models' binds) j.parents.length ix ws Ω → 1 ≤ Ω → 1 ≤ limit →
          Ω * (2 * (ρ * S ^ D) * (3 * (β * limit + γ)) + 2 * reach S (2 * M) ρ T D) ≤ 2 ^ 99 →
          ∃ s', Skinning.run ck job state = .ok s' ∧
            MappedNear job.vertexCount (fun i p => averaged (carried j.root blend path binds) ix (ws.map val) job.influences i p)
              (fun p => Ω * (ρ * S ^ D * bound3 β γ p + reach S (2 * M) ρ T D) *
                (3 * ((1 + blendError (plays.length + 1)) ^ D - 1) + (12 * job.influences + 76) / 2 ^ 24))
              limit job.inPositions s'.positions := by
  obtain ⟨sampled, ctx', pose, models', h1, h2, h3, h4, exact, restPose, blend, h5, h6, h7⟩ := C90_frame hst hM hM2 hs hs2 hS j hplays hcount
    hthr hthr1 hthr2 hweight hrl hrest ctx hbuf hsome models hp hmodels hρ hroot hf1 hf2 ht1 ht2
  have hex : ∀ i, ∃ path, i < j.parents.length → PathTo j.parents i path := by
    intro i
    by_cases hi : i < j.parents.length
    · obtain ⟨m, path, -, h, -⟩ := h7 i hi
      exact ⟨path, fun _ => h⟩
    · exact ⟨[], fun h => absurd h hi⟩
  choose path hpath using hex
  refine ⟨sampled, ctx', pose, models', h1, h2, h3, h4, exact, restPose, blend, path, h5,
    fun i hi => ⟨(h6 i hi).1, (h6 i hi).2, hpath i hi⟩, ?_⟩
  intro ck job state ix ws Ω limit hmesh hΩ hlim0 hlim
  rw [← hb] at hmesh
  have hS1 : 1 ≤ S := by
    refine le_trans ?_ hS
    have : (0:ℝ) ≤ (plays.length + 1) / 2 ^ 20 := by positivity
    nlinarith
  refine frame_mesh hmesh hS1 (show 1 / 2 ^ 100 ≤ 2 * M from le_trans (by norm_num) (hM.trans (by linarith [(show (0:ℝ) < 1 / 2 ^ 50 by positivity)])))
    hρ hroot (by unfold blendError; positivity) hD1 hΩ hβ hγ hlim0 hbinds hg hlim (fun i hi => hD i _ (hpath i (hb ▸ hi))) (fun i hi => ?_)
  obtain ⟨m, path', e1, e2, e3⟩ := h7 i (hb ▸ hi)
  cases LocalToModel.pathTo_unique e2 (hpath i (hb ▸ hi))
  exact ⟨m, e1, e3⟩

/-! ### Example -/

section
open Ozz.Sampling.FloatExample Ozz.Sampling.Example

theorem eye_bind : Bind32Ok eye33 1 0 where
  finite := fun c r => (eye33_ok c r).1
  last := fun c hc => by rw [(eye33_ok c 3).2, if_neg hc]
  one := by rw [(eye33_ok 3 3).2, if_pos rfl]
  linear := fun c r _ _ => by
    rw [(eye33_ok c r).2]
    split <;> norm_num
  translation := fun r hr => by
    rw [(eye33_ok 3 r).2, if_neg (Ne.symm hr)]
    norm_num

def vert33 : P3 F32 := fun r => if r = 0 then F32.one else F32.zero

def job33 (ms : List (Mat4 F32)) : Skinning.Job F32 where
  vertexCount := 1
  influences := 2
  matrices := some (.ok ms)
  itMatrices := none
  indices := some (.ok [0, 1])
  weights := some (.ok [quarter])
  inPositions := some (.ok [vert33])
  inNormals := none
  inTangents := none

def state33 : Skinning.State F32 := ⟨some (.ok [vert33]), none, none⟩

theorem mesh33 (ck : Bool) (ms : List (Mat4 F32)) (h : 1 ≤ ms.length) : MeshOk ck (job33 ms) state33 ms 2 [0, 1] [quarter] 1 where
  valid := by
    obtain ⟨b, h1, h2⟩ := Skinning.validate_iff ck (job33 ms) state33 (by norm_num [job33])
    rw [h1, h2.mpr ⟨by simp [job33], ⟨_, rfl, h⟩, ⟨_, rfl, by simp [job33]⟩, fun _ => ⟨_, rfl, by simp [job33]⟩, ⟨_, rfl, by simp [job33]⟩,
      ⟨_, rfl, by simp [job33]⟩,
      fun _ => rfl, fun h => absurd rfl h⟩]
  size := by norm_num [job33]
  few := by norm_num [job33]
  matrices := rfl
  noInverse := rfl
  indices := rfl
  inRange := by
    intro k i hk hi
    have hk : k < 1 * 2 := hk
    obtain rfl | rfl : k = 0 ∨ k = 1 := by omega
    · cases hi; decide
    · cases hi; decide
  weights := fun _ => rfl
  weightsOk := fun _ => by
    refine ⟨?_, ?_⟩
    · intro w hw
      rw [List.mem_singleton] at hw
      subst hw
      exact quarter_unit.finite
    · intro i hi
      have hi : i < 1 := hi
      obtain rfl : i = 0 := by omega
      have h1 := quarter_unit
      show ∑ k ∈ Finset.range 1, |([quarter].map val).getD (0 * 1 + k) 0| ≤ 1
      rw [Finset.sum_range_one]
      show |val quarter| ≤ 1
      rw [abs_of_nonneg h1.nonneg]
      exact h1.le_one

/-- One vertex a metre from the origin, on two joints of a moving skeleton whose translations go up to a kilometre: it is within four
metres of where it should be. -/
example (ck : Bool) (mt ms : Mem F32 (SoaVec3 F32)) (mr : Mem F32 (SoaQuat F32)) (o : SoaTransform F32) (m0 : Mat4 F32) :
    ∃ c' out' models' pose s' ys q, Sampling.run codeNumerics anim33 100 quarter (Context.new 2 mt mr ms) [o] = .ok (c', out') ∧
      LocalToModel.run Mat4.mul localMatrices ⟨[-1, 0], out', eye33, -1, 1023, false⟩ [m0, m0] = .ok models' ∧
      ExactPose anim33 0 quarter (pose 0) ∧ ExactPose anim33 1 quarter (pose 1) ∧
      Skinning.run ck (job33 (List.zipWith Mat4.mul models' [eye33, eye33])) state33 = .ok s' ∧ s'.positions = some (.ok ys) ∧
      ys[0]? = some q ∧ ∀ r, |val (q r) - averaged (carried eye33 pose (fun i => if i = 0 then [0] else [0, 1]) [eye33, eye33])
        [0, 1] [val quarter] 2 0 (valP vert33) r| ≤ 4 := by
  have hp : ParentsFirst [-1, 0] := by
    intro i h
    have h : i < 2 := h
    obtain rfl | rfl : i = 0 ∨ i = 1 := by omega
    · exact ⟨by show (-1 : Int) ≤ -1; norm_num, by show (-1 : Int) < 0; norm_num⟩
    · exact ⟨by show (-1 : Int) ≤ 0; norm_num, by show (0 : Int) < 1; norm_num⟩
  have p0 : PathTo [-1, 0] 0 [0] := .root rfl
  have p1 : PathTo [-1, 0] 1 [0, 1] := .child (p := 0) rfl p0
  have hlt : ∀ i path, PathTo [-1, 0] i path → i < 2 := by
    intro i path h
    cases h with
    | root h => exact (List.getElem?_eq_some_iff.mp h).1
    | child h _ => exact (List.getElem?_eq_some_iff.mp h).1
  have hD : ∀ i path, PathTo [-1, 0] i path → path.length ≤ 2 := by
    intro i path h
    obtain rfl | rfl : i = 0 ∨ i = 1 := by have := hlt i path h; omega
    · cases LocalToModel.pathTo_unique h p0; decide
    · cases LocalToModel.pathTo_unique h p1; decide
  obtain ⟨c', out', models', pose, path, h1, h2, h3, h4, h5⟩ := C92_rigid (M := 1024) store33_ok (c := Context.new 2 mt mr ms)
    ⟨mt, mr, ms, [], by simp [OpsOk], .nil _⟩ (addr := 100) (a := anim33) (by simp [store33]) (by norm_num) anim33_ok rfl
    quarter_unit (out := [o]) (by simp) ⟨[-1, 0], [], eye33, -1, 1023, false⟩ [m0, m0] hp (by decide) (by simp) eye33_ok
    (by norm_num) (by norm_num) (by norm_num) (by norm_num) (D := 2) (by norm_num) (by norm_num) hD (binds := [eye33, eye33]) rfl (β := 1) (γ := 0)
    le_rfl le_rfl (fun b hb => by
      have : b = eye33 := by simpa using hb
      rw [this]; exact eye_bind)
  have hpath : ∀ i < 2, path i = if i = 0 then [0] else [0, 1] := by
    intro i hi
    have h6 := (h4 i hi).2
    obtain rfl | rfl : i = 0 ∨ i = 1 := by omega
    · exact LocalToModel.pathTo_unique h6 p0
    · exact LocalToModel.pathTo_unique h6 p1
  obtain ⟨s', e1, xs, ys, e2, e3, e4⟩ := h5 (mesh33 ck (List.zipWith Mat4.mul models' [eye33, eye33]) (by
    rw [List.length_zipWith, h3]; simp)) le_rfl (limit := 1) le_rfl (by norm_num)
  cases e2
  have hn : norm1 (valP vert33) = 1 := by simp [norm1, valP, vert33, valZero, valOne]
  have hfin : ∀ c, Finite32 (vert33 c).bits := by
    intro c
    unfold vert33
    split
    · exact one_finite
    · exact zero_finite
  obtain ⟨q, e5, e6⟩ := e4 0 vert33 Nat.zero_lt_one rfl hfin hn.le
  refine ⟨c', out', models', pose, s', ys, q, h1, h2, (h4 0 (by decide)).1, (h4 1 (by decide)).1, e1, e3, e5, fun r => ?_⟩
  have h7 := (e6 r).2
  beta_reduce at h7
  have h8 : averaged (carried eye33 pose path [eye33, eye33]) [0, 1] ([quarter].map val) 2 0 (valP vert33) r =
      averaged (carried eye33 pose (fun i => if i = 0 then [0] else [0, 1]) [eye33, eye33]) [0, 1] [val quarter] 2 0 (valP vert33) r := by
    unfold averaged
    refine Finset.sum_congr rfl fun k hk => ?_
    rw [Finset.mem_range] at hk
    obtain rfl | rfl : k = 0 ∨ k = 1 := by omega
    · show _ * carried eye33 pose path [eye33, eye33] 0 _ _ = _ * carried eye33 pose _ [eye33, eye33] 0 _ _
      unfold carried
      rw [hpath 0 (by decide)]
      rfl
    · show _ * carried eye33 pose path [eye33, eye33] 1 _ _ = _ * carried eye33 pose _ [eye33, eye33] 1 _ _
      unfold carried
      rw [hpath 1 (by decide)]
      rfl
  have h9 : (job33 (List.zipWith Mat4.mul models' [eye33, eye33])).influences = 2 := rfl
  rw [h9] at h7
  rw [← h8]
  refine h7.trans ?_
  unfold bound3
  rw [hn]
  norm_num

end

end Ozz.Props
