import Verif.Model.Skinning
import Verif.Proofs.Blending
import Mathlib.Order.Basic
import Mathlib.Tactic.Tauto

/-! Helper lemmas for skinning, for any arithmetic. -/

namespace Ozz.Skinning

variable {α : Type} [Add α] [Sub α] [Mul α] [Div α] [Neg α] [NumOps α]

/-! ### Buffers -/

/-- A readable buffer with at least `n` elements. -/
def Has {A : Type} (b : Buf A) (n : Nat) : Prop := ∃ xs, b = some (.ok xs) ∧ n ≤ xs.length

theorem unpack_ok {A : Type} (b : Buf A) (n : Nat) (xs : List A) :
    unpack b n = .ok xs ↔ b = some (.ok xs) ∧ n ≤ xs.length := by
  unfold unpack
  cases b with
  | none => simp
  | some b =>
    cases b with
    | error e => simp
    | ok ys =>
      simp only [Option.some.injEq, Except.ok.injEq]
      split
      · next h =>
        constructor
        · intro h; cases h
        · rintro ⟨rfl, h'⟩; omega
      · next h =>
        constructor
        · intro h'; cases h'; exact ⟨rfl, by omega⟩
        · rintro ⟨rfl, -⟩; rfl

theorem unpack_panic {A : Type} (b : Buf A) (n : Nat) : unpack b n ≠ .error .panic := by
  unfold unpack
  split
  · simp
  · simp
  · split <;> simp

theorem open_ok {A : Type} (b : Buf A) (xs : List A) : open' b = .ok xs ↔ b = some (.ok xs) := by
  unfold open'
  split <;> simp

theorem open_panic {A : Type} (b : Buf A) : open' b ≠ .error .panic := by
  unfold open'
  split <;> simp

theorem unwrapBuf_ok {A : Type} (b : Buf A) (xs : List A) : unwrapBuf b = .ok xs ↔ b = some (.ok xs) := by
  unfold unwrapBuf
  split <;> simp

theorem unwrapBuf_panic {A : Type} (b : Buf A) (h : b ≠ none) : unwrapBuf b ≠ .error .panic := by
  unfold unwrapBuf
  split
  · exact absurd rfl h
  · simp
  · simp

theorem lenOf_some {A : Type} (b : Buf A) (n : Nat) : lenOf b = some n ↔ ∃ xs, b = some (.ok xs) ∧ xs.length = n := by
  unfold lenOf
  split
  · simp
  · next h =>
    constructor
    · intro h; cases h
    · rintro ⟨xs, rfl, -⟩; exact absurd rfl (h xs)

theorem mulU_ok {ck : Bool} {a b : Nat} (h : a * b < 2 ^ 64) : mulU ck a b = .ok (a * b) := by
  unfold mulU; rw [if_pos h]

theorem addU_ok {ck : Bool} {a b : Nat} (h : a + b < 2 ^ 64) : addU ck a b = .ok (a + b) := by
  unfold addU; rw [if_pos h]

/-! ### Validation -/

/-- What `validate` asks for, if the sizes do not overflow. -/
def Valid (j : Job α) (s : State α) : Prop :=
  0 < j.influences ∧ Has j.matrices 1 ∧ Has j.indices (j.vertexCount * j.influences) ∧
  (1 < j.influences → Has j.weights (j.vertexCount * (j.influences - 1))) ∧
  Has j.inPositions j.vertexCount ∧ Has s.positions j.vertexCount ∧
  (j.inNormals = none → j.inTangents = none) ∧
  (j.inNormals ≠ none → Has j.inNormals j.vertexCount ∧ Has s.normals j.vertexCount ∧
    (j.inTangents ≠ none → Has j.inTangents j.vertexCount ∧ Has s.tangents j.vertexCount))

theorem has_iff {A : Type} (b : Buf A) (n : Nat) : Has b n ↔ ∃ k, lenOf b = some k ∧ n ≤ k := by
  unfold Has
  constructor
  · rintro ⟨xs, rfl, h⟩; exact ⟨xs.length, rfl, h⟩
  · rintro ⟨k, h1, h2⟩
    obtain ⟨xs, rfl, rfl⟩ := (lenOf_some _ _).mp h1
    exact ⟨xs, rfl, h2⟩

omit [Add α] [Sub α] [Mul α] [Div α] [Neg α] [NumOps α] in
theorem validate_iff (ck : Bool) (j : Job α) (s : State α) (h : j.vertexCount * j.influences < 2 ^ 64) :
    ∃ b, validate ck j s = .ok b ∧ (b = true ↔ Valid j s) := by
  have h' : j.vertexCount * (j.influences - 1) < 2 ^ 64 :=
    Nat.lt_of_le_of_lt (Nat.mul_le_mul_left _ (Nat.sub_le _ _)) h
  have hbind : ∀ {A B : Type} (x : A) (f : A → Res B), ((Except.ok x : Res A) >>= f) = f x := fun _ _ => rfl
  have hcw : ∀ ok, ∃ wok, checkWeights ck j ok = .ok wok ∧ (wok = some true ↔ ok = true ∧
      (1 < j.influences → ∃ k, lenOf j.weights = some k ∧ j.vertexCount * (j.influences - 1) ≤ k)) := by
    intro ok
    unfold checkWeights
    by_cases hi : 1 < j.influences
    · cases h3 : lenOf j.weights with
      | none => exact ⟨none, by simp [hi, pure, Except.pure], by simp [hi]⟩
      | some nw =>
        refine ⟨some (ok && decide (j.vertexCount * (j.influences - 1) ≤ nw)), ?_, ?_⟩
        · simp only [hi, if_true, mulU_ok h', hbind]; rfl
        · simp [hi]
    · exact ⟨some ok, by simp only [hi, if_false]; rfl, by simp [hi]⟩
  unfold validate Valid
  simp only [has_iff, mulU_ok h]
  cases h1 : lenOf j.matrices with
  | none => exact ⟨false, rfl, by simp⟩
  | some m =>
  cases h2 : lenOf j.indices with
  | none => exact ⟨false, rfl, by simp⟩
  | some ni =>
  obtain ⟨wok, hw1, hw2⟩ := hcw (decide (0 < j.influences) && m != 0 && decide (j.vertexCount * j.influences ≤ ni))
  simp only [hbind, hw1]
  cases wok with
  | none =>
    refine ⟨false, rfl, ?_⟩
    simp only [Bool.false_eq_true, false_iff]
    rintro ⟨k1, ⟨_, k2, k2'⟩, ⟨_, k3, k3'⟩, k4, -⟩
    cases k2; cases k3
    have := hw2.mpr ⟨by simp [k1, k3']; omega, k4⟩
    cases this
  | some w =>
    have hw3 : w = true ↔ 0 < j.influences ∧ 1 ≤ m ∧ j.vertexCount * j.influences ≤ ni ∧
        (1 < j.influences → ∃ k, lenOf j.weights = some k ∧ j.vertexCount * (j.influences - 1) ≤ k) := by
      rw [← Option.some.injEq w true, hw2]; simp [and_assoc, Nat.one_le_iff_ne_zero]
    cases h5 : lenOf j.inPositions with
    | none => exact ⟨false, rfl, by simp⟩
    | some a =>
    cases h6 : lenOf s.positions with
    | none => exact ⟨false, rfl, by simp⟩
    | some b =>
    clear hw2 hw1
    cases h7 : j.inNormals with
    | none =>
      refine ⟨w && decide (j.vertexCount ≤ a) && decide (j.vertexCount ≤ b) && j.inTangents.isNone, rfl, ?_⟩
      simp only [Bool.and_eq_true, decide_eq_true_eq, hw3, Option.isNone_iff_eq_none]
      simp
      tauto
    | some nb =>
      simp only [Option.isSome_some, if_true]
      cases h8 : lenOf (some nb) with
      | none =>
        exact ⟨false, rfl, by simp⟩
      | some na =>
        cases h9 : lenOf s.normals with
        | none => exact ⟨false, rfl, by simp⟩
        | some nb' =>
          cases h10 : j.inTangents with
          | none =>
            refine ⟨w && decide (j.vertexCount ≤ a) && decide (j.vertexCount ≤ b) && decide (j.vertexCount ≤ na) && decide (j.vertexCount ≤ nb'), rfl, ?_⟩
            simp only [Bool.and_eq_true, decide_eq_true_eq, hw3]
            simp
            tauto
          | some tb =>
            simp only [Option.isSome_some, if_true]
            cases h11 : lenOf (some tb) with
            | none => exact ⟨false, rfl, by simp⟩
            | some ta =>
              cases h12 : lenOf s.tangents with
              | none => exact ⟨false, rfl, by simp⟩
              | some tb' =>
                refine ⟨w && decide (j.vertexCount ≤ a) && decide (j.vertexCount ≤ b) && decide (j.vertexCount ≤ na) && decide (j.vertexCount ≤ nb') &&
                  decide (j.vertexCount ≤ ta) && decide (j.vertexCount ≤ tb'), rfl, ?_⟩
                simp only [Bool.and_eq_true, decide_eq_true_eq, hw3]
                simp
                tauto

/-! ### The branch -/

/-- The functions for one, two, three, four and more influences. -/
def kindOf (n : Nat) : Kind := if n = 1 then .one else if n ≤ 4 then .const n else .any

omit [Add α] [Sub α] [Mul α] [Div α] [Neg α] [NumOps α] in
theorem table_branch (j : Job α) (h : 0 < j.influences) :
    table (branchOf j) = some (kindOf j.influences, j.inNormals.isSome && j.itMatrices.isSome,
      ⟨j.inNormals.isSome, j.inNormals.isSome && j.inTangents.isSome⟩) := by
  have hk : (j.influences = 1 ∧ min (j.influences - 1) 4 = 0) ∨ (j.influences = 2 ∧ min (j.influences - 1) 4 = 1) ∨
      (j.influences = 3 ∧ min (j.influences - 1) 4 = 2) ∨ (j.influences = 4 ∧ min (j.influences - 1) 4 = 3) ∨
      (4 < j.influences ∧ min (j.influences - 1) 4 = 4) := by omega
  unfold branchOf kindOf
  generalize j.inNormals.isSome = a
  generalize j.inTangents.isSome = b
  generalize j.itMatrices.isSome = c
  rcases hk with ⟨h1, h2⟩ | ⟨h1, h2⟩ | ⟨h1, h2⟩ | ⟨h1, h2⟩ | ⟨h1, h2⟩
  · rw [h2, h1]; cases a <;> cases b <;> cases c <;> rfl
  · rw [h2, h1]; cases a <;> cases b <;> cases c <;> rfl
  · rw [h2, h1]; cases a <;> cases b <;> cases c <;> rfl
  · rw [h2, h1]; cases a <;> cases b <;> cases c <;> rfl
  · have e1 : (if j.influences = 1 then Kind.one else if j.influences ≤ 4 then Kind.const j.influences else Kind.any) = Kind.any := by
      rw [if_neg (by omega), if_neg (by omega)]
    rw [h2, e1]; cases a <;> cases b <;> cases c <;> rfl

/-- The attributes and matrices the job uses. -/
def attrsOf (j : Job α) : Attrs := ⟨j.inNormals.isSome, j.inNormals.isSome && j.inTangents.isSome⟩
def usesIt (j : Job α) : Bool := j.inNormals.isSome && j.itMatrices.isSome

omit [Div α] [Neg α] in
theorem run_eq (ck : Bool) (j : Job α) (s : State α) (h : 0 < j.influences) :
    run ck j s = if j.influences = 1
      then process (fun x i => gather1 x.matrices x.itMatrices x.indices i) (attrsOf j) j s (open1 (usesIt j) (attrsOf j) j s)
      else process (fun x i => gather ck j.influences x.matrices x.itMatrices x.indices x.weights i) (attrsOf j) j s
        (openN ck j.influences (usesIt j) (attrsOf j) j s) := by
  unfold run
  rw [if_neg (by omega), table_branch j h]
  simp only [call, kindOf]
  by_cases h1 : j.influences = 1
  · rw [if_pos h1, if_pos h1]; rfl
  · rw [if_neg h1, if_neg h1]
    by_cases h4 : j.influences ≤ 4
    · rw [if_pos h4]; rfl
    · rw [if_neg h4]; rfl

/-! ### Opening the buffers -/

omit [Add α] [Sub α] [Mul α] [Div α] [Neg α] [NumOps α] in
/-- The buffers hold what was opened. -/
structure OpenedOk (it : Bool) (a : Attrs) (j : Job α) (s : State α) (x : Opened α) : Prop where
  matrices : j.matrices = some (.ok x.matrices)
  it_on : it = true → ∃ its, x.itMatrices = some its ∧ j.itMatrices = some (.ok its)
  it_off : it = false → x.itMatrices = none
  inP : j.inPositions = some (.ok x.ins.positions) ∧ j.vertexCount ≤ x.ins.positions.length
  outP : s.positions = some (.ok x.outs.positions) ∧ j.vertexCount ≤ x.outs.positions.length
  inN : a.normals = true → j.inNormals = some (.ok x.ins.normals) ∧ j.vertexCount ≤ x.ins.normals.length
  outN : a.normals = true → s.normals = some (.ok x.outs.normals) ∧ j.vertexCount ≤ x.outs.normals.length
  inT : a.normals = true → a.tangents = true → j.inTangents = some (.ok x.ins.tangents) ∧ j.vertexCount ≤ x.ins.tangents.length
  outT : a.normals = true → a.tangents = true → s.tangents = some (.ok x.outs.tangents) ∧ j.vertexCount ≤ x.outs.tangents.length

theorem bind_panic {A B : Type} {x : Res A} {f : A → Res B} (hx : x ≠ .error .panic) (hf : ∀ a, x = .ok a → f a ≠ .error .panic) :
    x >>= f ≠ .error .panic := by
  cases x with
  | error e =>
    intro h
    apply hx
    exact congrArg Except.error (Except.error.inj h)
  | ok a => exact hf a rfl

theorem unpackIf_panic {A : Type} (c : Bool) (b : Buf A) (n : Nat) : unpackIf c b n ≠ .error .panic := by
  unfold unpackIf
  split
  · exact unpack_panic b n
  · simp

omit [Add α] [Sub α] [Mul α] [Div α] [Neg α] [NumOps α] in
theorem openAttrs_panic (a : Attrs) (j : Job α) (s : State α) : openAttrs a j s ≠ .error .panic := by
  unfold openAttrs
  refine bind_panic (unpack_panic _ _) fun _ _ => bind_panic (unpackIf_panic _ _ _) fun _ _ => bind_panic (unpackIf_panic _ _ _) fun _ _ =>
    bind_panic (unpack_panic _ _) fun _ _ => bind_panic (unpackIf_panic _ _ _) fun _ _ => bind_panic (unpackIf_panic _ _ _) fun _ _ => ?_
  simp [pure, Except.pure]

theorem unpackIf_ok {A : Type} {c : Bool} {b : Buf A} {n : Nat} {xs : List A} (h : unpackIf c b n = .ok xs) :
    c = true → b = some (.ok xs) ∧ n ≤ xs.length := by
  rintro rfl
  exact (unpack_ok _ _ _).mp h

omit [Add α] [Sub α] [Mul α] [Div α] [Neg α] [NumOps α] in
theorem openAttrs_ok {a : Attrs} {j : Job α} {s : State α} {r : Ins α × Outs α} (h : openAttrs a j s = .ok r) :
    (j.inPositions = some (.ok r.1.positions) ∧ j.vertexCount ≤ r.1.positions.length) ∧
    (s.positions = some (.ok r.2.positions) ∧ j.vertexCount ≤ r.2.positions.length) ∧
    (a.normals = true → j.inNormals = some (.ok r.1.normals) ∧ j.vertexCount ≤ r.1.normals.length) ∧
    (a.normals = true → s.normals = some (.ok r.2.normals) ∧ j.vertexCount ≤ r.2.normals.length) ∧
    (a.normals = true → a.tangents = true → j.inTangents = some (.ok r.1.tangents) ∧ j.vertexCount ≤ r.1.tangents.length) ∧
    (a.normals = true → a.tangents = true → s.tangents = some (.ok r.2.tangents) ∧ j.vertexCount ≤ r.2.tangents.length) := by
  unfold openAttrs at h
  obtain ⟨x1, e1, h⟩ := Blending.bind_ok h
  obtain ⟨x2, e2, h⟩ := Blending.bind_ok h
  obtain ⟨x3, e3, h⟩ := Blending.bind_ok h
  obtain ⟨x4, e4, h⟩ := Blending.bind_ok h
  obtain ⟨x5, e5, h⟩ := Blending.bind_ok h
  obtain ⟨x6, e6, h⟩ := Blending.bind_ok h
  cases h
  exact ⟨(unpack_ok _ _ _).mp e1, (unpack_ok _ _ _).mp e4, unpackIf_ok e2, unpackIf_ok e5,
    fun h1 h2 => unpackIf_ok e3 (by simp [h1, h2]), fun h1 h2 => unpackIf_ok e6 (by simp [h1, h2])⟩

omit [Add α] [Sub α] [Mul α] [Div α] [Neg α] [NumOps α] in
/-- Readable and long enough buffers can be opened. -/
theorem openAttrs_isOk (a : Attrs) (j : Job α) (s : State α) (h1 : Has j.inPositions j.vertexCount)
    (h2 : Has s.positions j.vertexCount) (h3 : a.normals = true → Has j.inNormals j.vertexCount ∧ Has s.normals j.vertexCount)
    (h4 : a.normals = true → a.tangents = true → Has j.inTangents j.vertexCount ∧ Has s.tangents j.vertexCount) :
    ∃ r, openAttrs a j s = .ok r := by
  have hu : ∀ {A : Type} {b : Buf A} {n : Nat}, Has b n → ∃ xs, unpack b n = .ok xs := by
    rintro A b n ⟨xs, h, h'⟩
    exact ⟨xs, (unpack_ok _ _ _).mpr ⟨h, h'⟩⟩
  have hi : ∀ {A : Type} {c : Bool} {b : Buf A} {n : Nat}, (c = true → Has b n) → ∃ xs, unpackIf c b n = .ok xs := by
    intro A c b n h
    cases c with
    | true => exact hu (h rfl)
    | false => exact ⟨[], rfl⟩
  obtain ⟨x1, e1⟩ := hu h1
  obtain ⟨x4, e4⟩ := hu h2
  obtain ⟨x2, e2⟩ := hi (c := a.normals) (b := j.inNormals) (fun h => (h3 h).1)
  obtain ⟨x5, e5⟩ := hi (c := a.normals) (b := s.normals) (fun h => (h3 h).2)
  obtain ⟨x3, e3⟩ := hi (c := a.normals && a.tangents) (b := j.inTangents) (n := j.vertexCount) (fun h => by
    rw [Bool.and_eq_true] at h; exact (h4 h.1 h.2).1)
  obtain ⟨x6, e6⟩ := hi (c := a.normals && a.tangents) (b := s.tangents) (n := j.vertexCount) (fun h => by
    rw [Bool.and_eq_true] at h; exact (h4 h.1 h.2).2)
  refine ⟨(⟨x1, x2, x3⟩, ⟨x4, x5, x6⟩), ?_⟩
  unfold openAttrs
  rw [e1, e2, e3, e4, e5, e6]; rfl

omit [Add α] [Sub α] [Mul α] [Div α] [Neg α] [NumOps α] in
theorem openIt_ok {it : Bool} {j : Job α} {its : Option (List (Mat4 α))}
    (h : openIt it j = .ok its) :
    (it = true → ∃ ms, its = some ms ∧ j.itMatrices = some (.ok ms)) ∧ (it = false → its = none) := by
  cases it with
  | true =>
    obtain ⟨x, h1, h2⟩ := Blending.bind_ok h
    cases h2
    exact ⟨fun _ => ⟨x, rfl, (open_ok _ _).mp h1⟩, fun h => by cases h⟩
  | false => cases h; exact ⟨(fun h => by cases h), fun _ => rfl⟩

omit [Add α] [Sub α] [Mul α] [Div α] [Neg α] [NumOps α] in
theorem openIt_panic (it : Bool) (j : Job α) :
    openIt it j ≠ .error .panic := by
  cases it with
  | true => exact bind_panic (open_panic _) fun _ _ => by simp [pure, Except.pure]
  | false => simp [openIt]

omit [Add α] [Sub α] [Mul α] [Div α] [Neg α] [NumOps α] in
theorem open1_panic (it : Bool) (a : Attrs) (j : Job α) (s : State α) : open1 it a j s ≠ .error .panic := by
  unfold open1
  refine bind_panic (open_panic _) fun _ _ => bind_panic (openIt_panic _ _) fun _ _ => bind_panic (unpack_panic _ _) fun _ _ =>
    bind_panic (openAttrs_panic _ _ _) fun _ _ => ?_
  simp [pure, Except.pure]

omit [Add α] [Sub α] [Mul α] [Div α] [Neg α] [NumOps α] in
theorem open1_ok {it : Bool} {a : Attrs} {j : Job α} {s : State α} {x : Opened α} (h : open1 it a j s = .ok x) :
    OpenedOk it a j s x ∧ j.indices = some (.ok x.indices) ∧ j.vertexCount ≤ x.indices.length := by
  unfold open1 at h
  obtain ⟨x1, e1, h⟩ := Blending.bind_ok h
  obtain ⟨x2, e2, h⟩ := Blending.bind_ok h
  obtain ⟨x3, e3, h⟩ := Blending.bind_ok h
  obtain ⟨⟨x4, x5⟩, e4, h⟩ := Blending.bind_ok h
  cases h
  obtain ⟨p1, p2, p3, p4, p5, p6⟩ := openAttrs_ok e4
  exact ⟨⟨(open_ok _ _).mp e1, (openIt_ok e2).1, (openIt_ok e2).2, p1, p2, p3, p4, p5, p6⟩, (unpack_ok _ _ _).mp e3⟩

omit [Add α] [Sub α] [Mul α] [Div α] [Neg α] [NumOps α] in
theorem openN_ok {ck it : Bool} {n : Nat} {a : Attrs} {j : Job α} {s : State α} {x : Opened α} (hn : j.vertexCount * n < 2 ^ 64)
    (h : openN ck n it a j s = .ok x) :
    OpenedOk it a j s x ∧ (j.indices = some (.ok x.indices) ∧ j.vertexCount * n ≤ x.indices.length) ∧
      (j.weights = some (.ok x.weights) ∧ j.vertexCount * (n - 1) ≤ x.weights.length) := by
  have hn' : j.vertexCount * (n - 1) < 2 ^ 64 := Nat.lt_of_le_of_lt (Nat.mul_le_mul_left _ (Nat.sub_le _ _)) hn
  unfold openN at h
  obtain ⟨x1, e1, h⟩ := Blending.bind_ok h
  obtain ⟨x2, e2, h⟩ := Blending.bind_ok h
  obtain ⟨x6, e6, h⟩ := Blending.bind_ok h
  rw [mulU_ok hn] at e6; cases e6
  obtain ⟨x3, e3, h⟩ := Blending.bind_ok h
  obtain ⟨x7, e7, h⟩ := Blending.bind_ok h
  rw [mulU_ok hn'] at e7; cases e7
  obtain ⟨x8, e8, h⟩ := Blending.bind_ok h
  obtain ⟨⟨x4, x5⟩, e4, h⟩ := Blending.bind_ok h
  cases h
  obtain ⟨p1, p2, p3, p4, p5, p6⟩ := openAttrs_ok e4
  exact ⟨⟨(unwrapBuf_ok _ _).mp e1, (openIt_ok e2).1, (openIt_ok e2).2, p1, p2, p3, p4, p5, p6⟩, (unpack_ok _ _ _).mp e3,
    (unpack_ok _ _ _).mp e8⟩

omit [Add α] [Sub α] [Mul α] [Div α] [Neg α] [NumOps α] in
theorem openN_panic {ck it : Bool} {n : Nat} {a : Attrs} {j : Job α} {s : State α} (hn : j.vertexCount * n < 2 ^ 64)
    (hm : j.matrices ≠ none) : openN ck n it a j s ≠ .error .panic := by
  have hn' : j.vertexCount * (n - 1) < 2 ^ 64 := Nat.lt_of_le_of_lt (Nat.mul_le_mul_left _ (Nat.sub_le _ _)) hn
  unfold openN
  rw [mulU_ok hn, mulU_ok hn']
  refine bind_panic (unwrapBuf_panic _ hm) fun _ _ => bind_panic (openIt_panic _ _) fun _ _ => bind_panic (by simp) fun _ _ =>
    bind_panic (unpack_panic _ _) fun _ _ => bind_panic (by simp) fun _ _ => bind_panic (unpack_panic _ _) fun _ _ =>
    bind_panic (openAttrs_panic _ _ _) fun _ _ => ?_
  simp [pure, Except.pure]

omit [Add α] [Sub α] [Mul α] [Div α] [Neg α] [NumOps α] in
/-- The opened buffers of a job that reads everything it declares. -/
theorem valid_of_opened {j : Job α} {s : State α} {x : Opened α} (h : OpenedOk (usesIt j) (attrsOf j) j s x)
    (hi : 0 < j.influences) (hix : Has j.indices (j.vertexCount * j.influences))
    (hw : 1 < j.influences → Has j.weights (j.vertexCount * (j.influences - 1)))
    (hm : Has j.matrices 1) (ht : j.inNormals = none → j.inTangents = none) : Valid j s := by
  refine ⟨hi, hm, hix, hw, ⟨_, h.inP⟩, ⟨_, h.outP⟩, ht, fun hn => ?_⟩
  have hs : j.inNormals.isSome = true := by
    cases hx : j.inNormals with
    | none => exact absurd hx hn
    | some _ => rfl
  refine ⟨⟨_, h.inN hs⟩, ⟨_, h.outN hs⟩, fun htn => ?_⟩
  have hs' : j.inTangents.isSome = true := by
    cases hx : j.inTangents with
    | none => exact absurd hx htn
    | some _ => rfl
  have ha : (attrsOf j).tangents = true := by unfold attrsOf; simp [hs, hs']
  exact ⟨⟨_, h.inT hs ha⟩, ⟨_, h.outT hs ha⟩⟩

omit [Add α] [Sub α] [Mul α] [Div α] [Neg α] [NumOps α] in
theorem valid_attrs {j : Job α} {s : State α} (h : Valid j s) : ∃ r, openAttrs (attrsOf j) j s = .ok r := by
  obtain ⟨-, -, -, -, h5, h6, -, h8⟩ := h
  refine openAttrs_isOk _ j s h5 h6 (fun hn => ?_) (fun hn ht => ?_)
  · have : j.inNormals ≠ none := by
      intro h0; simp [attrsOf, h0] at hn
    exact ⟨(h8 this).1, (h8 this).2.1⟩
  · have h1 : j.inNormals ≠ none := by
      intro h0; simp [attrsOf, h0] at hn
    have h2 : j.inTangents ≠ none := by
      intro h0; simp [attrsOf, h0] at ht
    exact (h8 h1).2.2 h2

/-- The inverse-transpose matrices can be read if they are used. -/
def ItOk (j : Job α) : Prop := usesIt j = true → ∃ its, j.itMatrices = some (.ok its)

omit [Add α] [Sub α] [Mul α] [Div α] [Neg α] [NumOps α] in
theorem itOk_open {j : Job α} (h : ItOk j) :
    ∃ its, openIt (usesIt j) j = .ok its := by
  unfold ItOk at h
  cases hu : usesIt j with
  | false => exact ⟨none, rfl⟩
  | true =>
    obtain ⟨its, hi⟩ := h hu
    exact ⟨some its, by unfold openIt; rw [hi]; rfl⟩

omit [Add α] [Sub α] [Mul α] [Div α] [Neg α] [NumOps α] in
theorem valid_open1 {j : Job α} {s : State α} (h : Valid j s) (h1 : j.influences = 1) (hit : ItOk j) :
    ∃ x, open1 (usesIt j) (attrsOf j) j s = .ok x := by
  obtain ⟨r, hr⟩ := valid_attrs h
  obtain ⟨its, hits⟩ := itOk_open hit
  obtain ⟨-, ⟨ms, hm, -⟩, ⟨ix, hx, hx'⟩, -⟩ := h
  rw [h1, Nat.mul_one] at hx'
  refine ⟨⟨ms, its, ix, [], r.1, r.2⟩, ?_⟩
  unfold open1
  rw [(open_ok _ _).mpr hm, hits, (unpack_ok _ _ _).mpr ⟨hx, hx'⟩, hr]; rfl

omit [Add α] [Sub α] [Mul α] [Div α] [Neg α] [NumOps α] in
theorem valid_openN {ck : Bool} {j : Job α} {s : State α} (h : Valid j s) (h1 : 1 < j.influences) (hit : ItOk j)
    (hn : j.vertexCount * j.influences < 2 ^ 64) : ∃ x, openN ck j.influences (usesIt j) (attrsOf j) j s = .ok x := by
  have hn' : j.vertexCount * (j.influences - 1) < 2 ^ 64 := Nat.lt_of_le_of_lt (Nat.mul_le_mul_left _ (Nat.sub_le _ _)) hn
  obtain ⟨r, hr⟩ := valid_attrs h
  obtain ⟨its, hits⟩ := itOk_open hit
  obtain ⟨-, ⟨ms, hm, -⟩, ⟨ix, hx, hx'⟩, hw, -⟩ := h
  obtain ⟨ws, hw, hw'⟩ := hw h1
  refine ⟨⟨ms, its, ix, ws, r.1, r.2⟩, ?_⟩
  unfold openN
  rw [(unwrapBuf_ok _ _).mpr hm, hits, mulU_ok hn, mulU_ok hn']
  simp only [bind, Except.bind, pure, Except.pure, (unpack_ok _ _ _).mpr ⟨hx, hx'⟩, (unpack_ok _ _ _).mpr ⟨hw, hw'⟩, hr]

/-! ### The vertex loop -/

omit [Add α] [Sub α] [Mul α] [Div α] [Neg α] [NumOps α] in
theorem vertexLoop_ind {f : Nat → Outs α → Res (Outs α)} (I : Nat → Outs α → Prop) (k i : Nat) (o : Outs α) (h0 : I i o)
    (hs : ∀ m o, i ≤ m → m < i + k → I m o → ∃ o', f m o = .ok o' ∧ I (m + 1) o') :
    ∃ o', vertexLoop f k i o = .ok o' ∧ I (i + k) o' := by
  induction k generalizing i o with
  | zero => exact ⟨o, rfl, h0⟩
  | succ k ih =>
    obtain ⟨o1, h1, h2⟩ := hs i o (Nat.le_refl _) (by omega) h0
    obtain ⟨o2, h3, h4⟩ := ih (i + 1) o1 h2 (fun m o a b c => hs m o (by omega) (by omega) c)
    refine ⟨o2, ?_, by rw [show i + (k + 1) = i + 1 + k by omega]; exact h4⟩
    unfold vertexLoop
    rw [h1]; exact h3

omit [Sub α] [Div α] [Neg α] [NumOps α] in
theorem write_ok (a : Attrs) (ins : Ins α) (t : Mat4 α) (it : Option (Mat4 α)) (i : Nat) (o : Outs α)
    (h1 : i < ins.positions.length) (h2 : i < o.positions.length)
    (h3 : a.normals = true → i < ins.normals.length ∧ i < o.normals.length)
    (h4 : a.normals = true → a.tangents = true → i < ins.tangents.length ∧ i < o.tangents.length) :
    write a ins t it i o = .ok
      ⟨o.positions.set i (point t ins.positions[i]),
       if h : a.normals = true then o.normals.set i (vector (it.getD t) (ins.normals[i]'(h3 h).1)) else o.normals,
       if h : a.normals = true ∧ a.tangents = true then o.tangents.set i (vector (it.getD t) (ins.tangents[i]'(h4 h.1 h.2).1))
         else o.tangents⟩ := by
  unfold write
  have e1 : getIdx ins.positions i = .ok ins.positions[i] := getIdx_some (List.getElem?_eq_getElem h1)
  have e2 : ∀ v, setIdx o.positions i v = .ok (o.positions.set i v) := setIdx_some (List.getElem?_eq_getElem h2)
  simp only [e1, e2, bind, Except.bind, pure, Except.pure]
  by_cases hn : a.normals = true
  · have e3 : getIdx ins.normals i = .ok (ins.normals[i]'(h3 hn).1) := getIdx_some (List.getElem?_eq_getElem (h3 hn).1)
    have e4 : ∀ v, setIdx o.normals i v = .ok (o.normals.set i v) := setIdx_some (List.getElem?_eq_getElem (h3 hn).2)
    simp only [hn, if_true, e3, e4]
    by_cases ht : a.tangents = true
    · have e5 : getIdx ins.tangents i = .ok (ins.tangents[i]'(h4 hn ht).1) := getIdx_some (List.getElem?_eq_getElem (h4 hn ht).1)
      have e6 : ∀ v, setIdx o.tangents i v = .ok (o.tangents.set i v) := setIdx_some (List.getElem?_eq_getElem (h4 hn ht).2)
      simp [ht, e5, e6]
    · simp [ht]
  · simp [hn]

/-- What the loop wrote, up to vertex `m`. -/
structure Written (a : Attrs) (ins : Ins α) (t : Nat → Mat4 α) (it : Nat → Option (Mat4 α)) (o0 : Outs α) (m : Nat) (o : Outs α) :
    Prop where
  lenP : o.positions.length = o0.positions.length
  lenN : o.normals.length = o0.normals.length
  lenT : o.tangents.length = o0.tangents.length
  pos : ∀ i p, i < m → ins.positions[i]? = some p → o.positions[i]? = some (point (t i) p)
  nor : a.normals = true → ∀ i p, i < m → ins.normals[i]? = some p → o.normals[i]? = some (vector ((it i).getD (t i)) p)
  tan : a.normals = true → a.tangents = true → ∀ i p, i < m → ins.tangents[i]? = some p →
    o.tangents[i]? = some (vector ((it i).getD (t i)) p)
  keepP : ∀ i, m ≤ i → o.positions[i]? = o0.positions[i]?
  keepN : ∀ i, m ≤ i → o.normals[i]? = o0.normals[i]?
  keepT : ∀ i, m ≤ i → o.tangents[i]? = o0.tangents[i]?

omit [Sub α] [Div α] [Neg α] [NumOps α] in
theorem process_ok (g : Opened α → Nat → Res (Mat4 α × Option (Mat4 α))) (it : Bool) (a : Attrs) (j : Job α) (s : State α)
    (x : Opened α) (hx : OpenedOk it a j s x) (t : Nat → Mat4 α) (its : Nat → Option (Mat4 α))
    (hg : ∀ i, i < j.vertexCount → g x i = .ok (t i, its i)) :
    ∃ o, process g a j s (.ok x) = .ok (putBack a s o) ∧ Written a x.ins t its x.outs j.vertexCount o := by
  obtain ⟨o, h1, h2⟩ := vertexLoop_ind (f := fun i o => do
        let (t, it) ← g x i
        write a x.ins t it i o) (Written a x.ins t its x.outs) j.vertexCount 0 x.outs
    ⟨rfl, rfl, rfl, by simp, by simp, by simp, by simp, by simp, by simp⟩
    (by
      intro m o _ hm w
      have hm : m < j.vertexCount := by omega
      have hw := write_ok a x.ins (t m) (its m) m o (by have := hx.inP.2; omega) (by have := hx.outP.2; have := w.lenP; omega)
        (fun hn => ⟨by have := (hx.inN hn).2; omega, by have := (hx.outN hn).2; have := w.lenN; omega⟩)
        (fun hn ht => ⟨by have := (hx.inT hn ht).2; omega, by have := (hx.outT hn ht).2; have := w.lenT; omega⟩)
      refine ⟨_, by rw [hg m hm]; exact hw, ?_⟩
      constructor
      · simp [w.lenP]
      · dsimp only; split <;> simp [w.lenN]
      · dsimp only; split <;> simp [w.lenT]
      · intro i p hi hp
        dsimp only
        by_cases him : i = m
        · subst him
          rw [List.getElem?_set_self (by have := hx.outP.2; have := w.lenP; omega)]
          rw [List.getElem?_eq_some_iff] at hp
          obtain ⟨hp1, hp2⟩ := hp
          rw [hp2]
        · rw [List.getElem?_set_ne (by omega)]; exact w.pos i p (by omega) hp
      · intro hn i p hi hp
        dsimp only
        rw [dif_pos hn]
        by_cases him : i = m
        · subst him
          rw [List.getElem?_set_self (by have := (hx.outN hn).2; have := w.lenN; omega)]
          rw [List.getElem?_eq_some_iff] at hp
          obtain ⟨hp1, hp2⟩ := hp
          rw [hp2]
        · rw [List.getElem?_set_ne (by omega)]; exact w.nor hn i p (by omega) hp
      · intro hn ht i p hi hp
        dsimp only
        rw [dif_pos ⟨hn, ht⟩]
        by_cases him : i = m
        · subst him
          rw [List.getElem?_set_self (by have := (hx.outT hn ht).2; have := w.lenT; omega)]
          rw [List.getElem?_eq_some_iff] at hp
          obtain ⟨hp1, hp2⟩ := hp
          rw [hp2]
        · rw [List.getElem?_set_ne (by omega)]; exact w.tan hn ht i p (by omega) hp
      · intro i hi
        dsimp only
        rw [List.getElem?_set_ne (by omega)]; exact w.keepP i (by omega)
      · intro i hi
        dsimp only
        split
        · rw [List.getElem?_set_ne (by omega)]; exact w.keepN i (by omega)
        · exact w.keepN i (by omega)
      · intro i hi
        dsimp only
        split
        · rw [List.getElem?_set_ne (by omega)]; exact w.keepT i (by omega)
        · exact w.keepT i (by omega))
  rw [Nat.zero_add] at h2
  refine ⟨o, ?_, h2⟩
  unfold process
  simp only [h1]

/-! ### The matrices of a vertex -/

/-- Sum of the first `k + 1` weights. -/
def wsum (w : Nat → α) : Nat → F4 α
  | 0 => splat (w 0)
  | k + 1 => wsum w k + splat (w (k + 1))

/-- Sum of the first `k + 1` weighted matrices. -/
def msum (w : Nat → α) (M : Nat → Mat4 α) : Nat → Mat4 α
  | 0 => colMul (M 0) (splat (w 0))
  | k + 1 => msum w M k + colMul (M (k + 1)) (splat (w (k + 1)))

/-- All of `n` influences; the last weight is what is missing to one. -/
def blendAll (w : Nat → α) (M : Nat → Mat4 α) (n : Nat) : Mat4 α :=
  msum w M (n - 2) + colMul (M (n - 1)) (one4 - wsum w (n - 2))

omit [Add α] [Sub α] [Mul α] [Div α] [Neg α] [NumOps α] in
theorem matAt_some {ms : List (Mat4 α)} {i : Nat} {m : Mat4 α} (h : ms[i]? = some m) : matAt ms i = .ok m := by
  unfold matAt; rw [h]

omit [Div α] [Neg α] in
theorem gather_ok (ck : Bool) (n : Nat) (ms : List (Mat4 α)) (its : Option (List (Mat4 α))) (indices : List Nat)
    (weights : List α) (i : Nat) (w : Nat → α) (ix : Nat → Nat) (M T : Nat → Mat4 α) (hn : 2 ≤ n)
    (hb : i * n + n < 2 ^ 64) (hw : ∀ k < n - 1, weights[i * (n - 1) + k]? = some (w k))
    (hi : ∀ k < n, indices[i * n + k]? = some (ix k)) (hM : ∀ k < n, ms[ix k]? = some (M k))
    (hT : ∀ l, its = some l → ∀ k < n, l[ix k]? = some (T k)) :
    gather ck n ms its indices weights i = .ok (blendAll w M n, its.map fun _ => blendAll w T n) := by
  have hb' : i * (n - 1) + n < 2 ^ 64 := by
    have : i * (n - 1) ≤ i * n := Nat.mul_le_mul_left _ (Nat.sub_le _ _)
    omega
  have e0 : getIdx weights (i * (n - 1)) = .ok (w 0) := getIdx_some (by simpa using hw 0 (by omega))
  have e1 : getIdx indices (i * n) = .ok (ix 0) := getIdx_some (by simpa using hi 0 (by omega))
  have e2 : matAt ms (ix 0) = .ok (M 0) := matAt_some (hM 0 (by omega))
  have e3 : itAt its (ix 0) (splat (w 0)) none = .ok (its.map fun _ => msum w T 0) := by
    cases its with
    | none => rfl
    | some l => simp only [itAt, matAt_some (hT l rfl 0 (by omega)), bind, Except.bind, pure, Except.pure]; rfl
  have estep : ∀ k, k + 1 < n → itAt its (ix (k + 1)) (splat (w (k + 1))) (its.map fun _ => msum w T k)
      = .ok (its.map fun _ => msum w T (k + 1)) := by
    intro k hk
    cases its with
    | none => rfl
    | some l => simp only [itAt, matAt_some (hT l rfl (k + 1) hk), bind, Except.bind, pure, Except.pure]; rfl
  have elast : itAt its (ix (n - 1)) (one4 - wsum w (n - 2)) (its.map fun _ => msum w T (n - 2))
      = .ok (its.map fun _ => blendAll w T n) := by
    cases its with
    | none => rfl
    | some l => simp only [itAt, matAt_some (hT l rfl (n - 1) (by omega)), bind, Except.bind, pure, Except.pure]; rfl
  obtain ⟨r, h1, h2⟩ := forFrom_ind (fun j (x : F4 α × Mat4 α × Option (Mat4 α)) => do
    let k ← addU ck (i * (n - 1)) j
    let w ← getIdx weights k
    let k ← addU ck (i * n) j
    let ji ← getIdx indices k
    let m ← matAt ms ji
    let it ← itAt its ji (splat w) x.2.2
    (.ok (x.1 + splat w, x.2.1 + colMul m (splat w), it) : Res _))
    (fun j x => x = (wsum w (j - 1), msum w M (j - 1), its.map fun _ => msum w T (j - 1)))
    (max (n - 1) 1 - 1) 1 (splat (w 0), colMul (M 0) (splat (w 0)), its.map fun _ => msum w T 0) rfl
    (by
      rintro k x hk1 hk2 rfl
      have hk : k < n - 1 := by omega
      obtain ⟨k, rfl⟩ : ∃ k', k = k' + 1 := ⟨k - 1, by omega⟩
      refine ⟨_, ?_, rfl⟩
      simp only [Nat.add_sub_cancel, addU_ok (ck := ck) (show i * (n - 1) + (k + 1) < 2 ^ 64 by omega),
        addU_ok (ck := ck) (show i * n + (k + 1) < 2 ^ 64 by omega),
        bind, Except.bind, getIdx_some (hw (k + 1) hk), getIdx_some (hi (k + 1) (by omega)), matAt_some (hM (k + 1) (by omega)),
        estep k (by omega)]
      rfl)
  have hidx : i * n + n - 1 = i * n + (n - 1) := by omega
  have e4 : getIdx indices (i * n + n - 1) = .ok (ix (n - 1)) := getIdx_some (by rw [hidx]; exact hi (n - 1) (by omega))
  have hlast : 1 + (max (n - 1) 1 - 1) - 1 = n - 2 := by omega
  rw [hlast] at h2
  subst h2
  unfold gather
  simp only [mulU_ok (ck := ck) (show i * (n - 1) < 2 ^ 64 by omega), mulU_ok (ck := ck) (show i * n < 2 ^ 64 by omega),
    addU_ok (ck := ck) (show i * n + n < 2 ^ 64 by omega), bind, Except.bind, pure, Except.pure, e0, e1, e2, e3] at h1 ⊢
  rw [h1]
  simp only [subU, show 1 ≤ i * n + n by omega, if_true, e4, matAt_some (hM (n - 1) (by omega)), elast]
  rfl

omit [Add α] [Sub α] [Mul α] [Div α] [Neg α] [NumOps α] in
theorem gather1_ok (ms : List (Mat4 α)) (its : Option (List (Mat4 α))) (indices : List Nat) (i ix : Nat) (M T : Mat4 α)
    (hi : indices[i]? = some ix) (hM : ms[ix]? = some M) (hT : ∀ l, its = some l → l[ix]? = some T) :
    gather1 ms its indices i = .ok (M, its.map fun _ => T) := by
  unfold gather1
  cases its with
  | none => simp only [getIdx_some hi, matAt_some hM, bind, Except.bind, pure, Except.pure, Option.map]
  | some l => simp only [getIdx_some hi, matAt_some hM, matAt_some (hT l rfl), bind, Except.bind, pure, Except.pure, Option.map]

/-! ### The whole job -/

/-- The matrix, index and weight used for influence `k` of vertex `i`. -/
def idxOf (ix : List Nat) (n i k : Nat) : Nat := (ix[i * n + k]?).getD 0
def matOf (ms : List (Mat4 α)) (ix : List Nat) (n i k : Nat) : Mat4 α :=
  (ms[idxOf ix n i k]?).getD fun _ _ => NumOps.zero
def weightOf (ws : List α) (n i k : Nat) : α := (ws[i * (n - 1) + k]?).getD NumOps.zero

/-- The matrix of vertex `i`. -/
def vertexMat (ms : List (Mat4 α)) (ix : List Nat) (ws : List α) (n i : Nat) : Mat4 α :=
  if n = 1 then matOf ms ix 1 i 0 else blendAll (weightOf ws n i) (matOf ms ix n i) n

/-- All indices are within the matrices. -/
def Within (ms : List (Mat4 α)) (ix : List Nat) (count : Nat) : Prop := ∀ k j, k < count → ix[k]? = some j → j < ms.length

omit [Div α] [Neg α] in
theorem skin_run (ck : Bool) (j : Job α) (s : State α) (hv : Valid j s) (hb : j.vertexCount * j.influences < 2 ^ 64)
    (hit : ItOk j)
    (hin : ∀ ms ix, j.matrices = some (.ok ms) → j.indices = some (.ok ix) → Within ms ix (j.vertexCount * j.influences))
    (hin' : usesIt j = true → ∀ ms ix, j.itMatrices = some (.ok ms) → j.indices = some (.ok ix) →
      Within ms ix (j.vertexCount * j.influences)) :
    ∃ x o, OpenedOk (usesIt j) (attrsOf j) j s x ∧ j.indices = some (.ok x.indices) ∧
      (1 < j.influences → j.weights = some (.ok x.weights)) ∧
      run ck j s = .ok (putBack (attrsOf j) s o) ∧
      Written (attrsOf j) x.ins (vertexMat x.matrices x.indices x.weights j.influences)
        (fun i => x.itMatrices.map fun l => vertexMat l x.indices x.weights j.influences i) x.outs j.vertexCount o := by
  have hpos := hv.1
  have hfind : ∀ {ms : List (Mat4 α)} {ix : List Nat} {n i k : Nat}, i < j.vertexCount → k < n → j.vertexCount * n ≤ ix.length →
      Within ms ix (j.vertexCount * n) →
      ix[i * n + k]? = some (idxOf ix n i k) ∧ ms[idxOf ix n i k]? = some (matOf ms ix n i k) := by
    intro ms ix n i k h1 h2 h3 h4
    have h5 : i * n + k < j.vertexCount * n := by
      have : (i + 1) * n ≤ j.vertexCount * n := Nat.mul_le_mul_right _ h1
      rw [Nat.succ_mul] at this; omega
    have h6 : ix[i * n + k]? = some (idxOf ix n i k) := by
      unfold idxOf; rw [List.getElem?_eq_getElem (by omega)]; rfl
    refine ⟨h6, ?_⟩
    have h7 := h4 _ _ h5 h6
    unfold matOf; rw [List.getElem?_eq_getElem h7]; rfl
  rw [run_eq ck j s hpos]
  by_cases h1 : j.influences = 1
  · obtain ⟨x, hx⟩ := valid_open1 hv h1 hit
    obtain ⟨ho, hix, hl⟩ := open1_ok hx
    have hw : Within x.matrices x.indices (j.vertexCount * 1) := by
      have := hin _ _ ho.matrices hix; rwa [h1] at this
    obtain ⟨o, h2, h3⟩ := process_ok (fun x i => gather1 x.matrices x.itMatrices x.indices i) (usesIt j) (attrsOf j) j s x ho
      (vertexMat x.matrices x.indices x.weights 1) (fun i => x.itMatrices.map fun l => vertexMat l x.indices x.weights 1 i)
      (by
        intro i hi
        obtain ⟨e1, e2⟩ := hfind (ms := x.matrices) (ix := x.indices) (k := 0) hi (Nat.zero_lt_one) (by omega) hw
        cases hits : x.itMatrices with
        | none =>
          exact gather1_ok _ none _ i _ (matOf x.matrices x.indices 1 i 0) (matOf x.matrices x.indices 1 i 0) (by simpa using e1) e2
            (by simp)
        | some l =>
          have hu : usesIt j = true := by
            cases hu : usesIt j with
            | true => rfl
            | false => have := ho.it_off hu; rw [hits] at this; cases this
          obtain ⟨l', hl', hl''⟩ := ho.it_on hu
          rw [hits] at hl'; cases hl'
          have hw' : Within l x.indices (j.vertexCount * 1) := by
            have := hin' hu _ _ hl'' hix; rwa [h1] at this
          exact gather1_ok _ (some l) _ i _ (matOf x.matrices x.indices 1 i 0) (matOf l x.indices 1 i 0) (by simpa using e1) e2
            (by rintro _ ⟨⟩; exact (hfind (ms := l) (ix := x.indices) (k := 0) hi (Nat.zero_lt_one) (by omega) hw').2))
    refine ⟨x, o, ho, hix, by omega, ?_, by rw [h1]; exact h3⟩
    rw [if_pos h1, hx, h2]
  · obtain ⟨x, hx⟩ := valid_openN (ck := ck) hv (by omega) hit hb
    obtain ⟨ho, ⟨hix, hl⟩, hws, hlw⟩ := openN_ok hb hx
    have hw := hin _ _ ho.matrices hix
    have hvm : ∀ (ms : List (Mat4 α)) i, vertexMat ms x.indices x.weights j.influences i =
        blendAll (weightOf x.weights j.influences i) (matOf ms x.indices j.influences i) j.influences := by
      intro ms i; unfold vertexMat; rw [if_neg h1]
    obtain ⟨o, h2, h3⟩ := process_ok (fun x i => gather ck j.influences x.matrices x.itMatrices x.indices x.weights i)
      (usesIt j) (attrsOf j) j s x ho
      (vertexMat x.matrices x.indices x.weights j.influences)
      (fun i => x.itMatrices.map fun l => vertexMat l x.indices x.weights j.influences i)
      (by
        intro i hi
        have hle : (i + 1) * j.influences ≤ j.vertexCount * j.influences := Nat.mul_le_mul_right _ hi
        rw [Nat.succ_mul] at hle
        have hle' : (i + 1) * (j.influences - 1) ≤ j.vertexCount * (j.influences - 1) := Nat.mul_le_mul_right _ hi
        rw [Nat.succ_mul] at hle'
        have hwt : ∀ k < j.influences - 1, x.weights[i * (j.influences - 1) + k]? = some (weightOf x.weights j.influences i k) := by
          intro k hk
          unfold weightOf; rw [List.getElem?_eq_getElem (by omega)]; rfl
        cases hits : x.itMatrices with
        | none =>
          rw [hvm]
          exact gather_ok ck j.influences x.matrices none x.indices x.weights i (weightOf x.weights j.influences i)
            (idxOf x.indices j.influences i) (matOf x.matrices x.indices j.influences i)
            (matOf x.matrices x.indices j.influences i) (by omega) (by omega) hwt
            (fun k hk => (hfind hi hk hl hw).1) (fun k hk => (hfind hi hk hl hw).2) (by simp)
        | some l =>
          have hu : usesIt j = true := by
            cases hu : usesIt j with
            | true => rfl
            | false => have := ho.it_off hu; rw [hits] at this; cases this
          obtain ⟨l', hl', hl''⟩ := ho.it_on hu
          rw [hits] at hl'; cases hl'
          have hw' := hin' hu _ _ hl'' hix
          rw [hvm]
          simp only [hvm]
          exact gather_ok ck j.influences x.matrices (some l) x.indices x.weights i (weightOf x.weights j.influences i)
            (idxOf x.indices j.influences i) (matOf x.matrices x.indices j.influences i)
            (matOf l x.indices j.influences i) (by omega) (by omega) hwt
            (fun k hk => (hfind hi hk hl hw).1) (fun k hk => (hfind hi hk hl hw).2)
            (by rintro _ ⟨⟩ k hk; exact (hfind hi hk hl hw').2))
    refine ⟨x, o, ho, hix, fun _ => hws, ?_, h3⟩
    rw [if_neg h1, hx, h2]

omit [Div α] [Neg α] in
/-- A job that cannot be opened leaves everything as it was. -/
theorem reject_run (ck : Bool) (j : Job α) (s : State α) (hv : ¬ Valid j s) (hb : j.vertexCount * j.influences < 2 ^ 64)
    (hm : j.matrices ≠ none) (hm' : j.matrices ≠ some (.ok [])) (ht : j.inNormals = none → j.inTangents = none) :
    ∃ e, run ck j s = .err e s := by
  by_cases h0 : j.influences = 0
  · exact ⟨.invalidJob, by unfold run; rw [if_pos h0]⟩
  have hpos : 0 < j.influences := by omega
  rw [run_eq ck j s hpos]
  have hmat : ∀ {ms}, j.matrices = some (.ok ms) → Has j.matrices 1 := by
    intro ms h
    refine ⟨ms, h, ?_⟩
    cases ms with
    | nil => exact absurd h hm'
    | cons _ _ => simp
  by_cases h1 : j.influences = 1
  · rw [if_pos h1]
    cases hx : open1 (usesIt j) (attrsOf j) j s with
    | error f =>
      cases f with
      | panic => exact absurd hx (open1_panic _ _ _ _)
      | err e => exact ⟨e, rfl⟩
    | ok x =>
      obtain ⟨ho, hix, hl⟩ := open1_ok hx
      exact absurd (valid_of_opened ho hpos ⟨_, hix, by rw [h1, Nat.mul_one]; exact hl⟩ (by omega) (hmat ho.matrices) ht) hv
  · rw [if_neg h1]
    cases hx : openN ck j.influences (usesIt j) (attrsOf j) j s with
    | error f =>
      cases f with
      | panic => exact absurd hx (openN_panic hb hm)
      | err e => exact ⟨e, rfl⟩
    | ok x =>
      obtain ⟨ho, hix, hw⟩ := openN_ok hb hx
      exact absurd (valid_of_opened ho hpos ⟨_, hix⟩ (fun _ => ⟨_, hw⟩) (hmat ho.matrices) ht) hv

/-! ### No panic -/

theorem getIdx_noPanic {A : Type} {xs : List A} {i : Nat} (h : i < xs.length) : getIdx xs i ≠ .error .panic := by
  rw [getIdx_some (List.getElem?_eq_getElem h)]; simp

omit [Add α] [Sub α] [Mul α] [Div α] [Neg α] [NumOps α] in
theorem matAt_panic (ms : List (Mat4 α)) (i : Nat) : matAt ms i ≠ .error .panic := by
  unfold matAt; split <;> simp

omit [Sub α] [Div α] [Neg α] [NumOps α] in
theorem itAt_panic (its : Option (List (Mat4 α))) (i : Nat) (w : F4 α) (o : Option (Mat4 α)) : itAt its i w o ≠ .error .panic := by
  unfold itAt
  split
  · simp
  · refine bind_panic (matAt_panic _ _) fun _ _ => ?_
    split <;> simp [pure, Except.pure]

theorem forFrom_noPanic {σ : Type} (f : Nat → σ → Res σ) (k i : Nat) (s : σ)
    (hf : ∀ m s, i ≤ m → m < i + k → f m s ≠ .error .panic) : forFrom f k i s ≠ .error .panic := by
  induction k generalizing i s with
  | zero => simp [forFrom]
  | succ k ih =>
    unfold forFrom
    exact bind_panic (hf i s (Nat.le_refl _) (by omega)) fun a _ => ih (i + 1) a (fun m s h1 h2 => hf m s (by omega) (by omega))

omit [Div α] [Neg α] in
theorem gather_panic (ck : Bool) (n : Nat) (ms : List (Mat4 α)) (its : Option (List (Mat4 α))) (indices : List Nat)
    (weights : List α) (i : Nat) (hn : 2 ≤ n) (hb : i * n + n < 2 ^ 64) (hw : i * (n - 1) + (n - 1) ≤ weights.length)
    (hi : i * n + n ≤ indices.length) : gather ck n ms its indices weights i ≠ .error .panic := by
  have hb' : i * (n - 1) + n < 2 ^ 64 := by
    have : i * (n - 1) ≤ i * n := Nat.mul_le_mul_left _ (Nat.sub_le _ _)
    omega
  unfold gather
  rw [mulU_ok (show i * (n - 1) < 2 ^ 64 by omega), mulU_ok (show i * n < 2 ^ 64 by omega),
    show ∀ (f : Nat → Res (Mat4 α × Option (Mat4 α))), ((Except.ok (i * (n - 1)) : Res Nat) >>= f) = f (i * (n - 1)) from fun _ => rfl,
    show ∀ (f : Nat → Res (Mat4 α × Option (Mat4 α))), ((Except.ok (i * n) : Res Nat) >>= f) = f (i * n) from fun _ => rfl]
  refine bind_panic (getIdx_noPanic (by omega)) fun _ _ => bind_panic (getIdx_noPanic (by omega)) fun _ _ =>
    bind_panic (matAt_panic _ _) fun _ _ => bind_panic (itAt_panic _ _ _ _) fun _ _ => bind_panic ?_ fun y _ => ?_
  · refine forFrom_noPanic _ _ _ _ ?_
    rintro m ⟨_, _, _⟩ h1 h2
    rw [addU_ok (show i * (n - 1) + m < 2 ^ 64 by omega), addU_ok (show i * n + m < 2 ^ 64 by omega)]
    refine bind_panic (by simp) fun k hk => ?_
    cases hk
    refine bind_panic (getIdx_noPanic (by omega)) fun _ _ => bind_panic (by simp) fun k hk => ?_
    cases hk
    exact bind_panic (getIdx_noPanic (by omega)) fun _ _ => bind_panic (matAt_panic _ _) fun _ _ =>
      bind_panic (itAt_panic _ _ _ _) fun _ _ => by simp [pure, Except.pure]
  · obtain ⟨_, _, _⟩ := y
    rw [addU_ok (show i * n + n < 2 ^ 64 by omega)]
    refine bind_panic (by simp) fun k hk => ?_
    cases hk
    refine bind_panic (by simp [subU, show 1 ≤ i * n + n by omega]) fun k hk => ?_
    simp only [subU, show 1 ≤ i * n + n by omega, if_true, Except.ok.injEq] at hk
    subst hk
    exact bind_panic (getIdx_noPanic (by omega)) fun _ _ => bind_panic (matAt_panic _ _) fun _ _ =>
      bind_panic (itAt_panic _ _ _ _) fun _ _ => by simp [pure, Except.pure]

omit [Add α] [Sub α] [Mul α] [Div α] [Neg α] [NumOps α] in
theorem gather1_panic (ms : List (Mat4 α)) (its : Option (List (Mat4 α))) (indices : List Nat) (i : Nat) (hi : i < indices.length) :
    gather1 ms its indices i ≠ .error .panic := by
  unfold gather1
  refine bind_panic (getIdx_noPanic hi) fun _ _ => bind_panic (matAt_panic _ _) fun _ _ => ?_
  split
  · simp [pure, Except.pure]
  · exact bind_panic (matAt_panic _ _) fun _ _ => by simp [pure, Except.pure]

omit [Add α] [Sub α] [Mul α] [Div α] [Neg α] [NumOps α] in
theorem vertexLoop_panic {f : Nat → Outs α → Res (Outs α)} (I : Outs α → Prop) (k i : Nat) (o : Outs α) (h0 : I o)
    (hp : ∀ m o, i ≤ m → m < i + k → I o → f m o ≠ .error .panic)
    (hs : ∀ m o o', i ≤ m → m < i + k → I o → f m o = .ok o' → I o') : vertexLoop f k i o ≠ .panic := by
  induction k generalizing i o with
  | zero => simp [vertexLoop]
  | succ k ih =>
    unfold vertexLoop
    cases hf : f i o with
    | ok o' =>
      exact ih (i + 1) o' (hs i o o' (Nat.le_refl _) (by omega) h0 hf) (fun m o h1 h2 => hp m o (by omega) (by omega))
        (fun m o o' h1 h2 => hs m o o' (by omega) (by omega))
    | error e =>
      cases e with
      | panic => exact absurd hf (hp i o (Nat.le_refl _) (by omega) h0)
      | err e => simp

omit [Sub α] [Div α] [Neg α] [NumOps α] in
theorem process_panic (g : Opened α → Nat → Res (Mat4 α × Option (Mat4 α))) (it : Bool) (a : Attrs) (j : Job α) (s : State α)
    (x : Opened α) (hx : OpenedOk it a j s x) (hg : ∀ i, i < j.vertexCount → g x i ≠ .error .panic) :
    process g a j s (.ok x) ≠ .panic := by
  have := vertexLoop_panic (f := fun i o => do
        let (t, it) ← g x i
        write a x.ins t it i o) (fun o => o.positions.length = x.outs.positions.length ∧
          o.normals.length = x.outs.normals.length ∧ o.tangents.length = x.outs.tangents.length) j.vertexCount 0 x.outs
    ⟨rfl, rfl, rfl⟩
    (by
      rintro m o - hm ⟨l1, l2, l3⟩
      have hm : m < j.vertexCount := by omega
      refine bind_panic (hg m hm) fun y _ => ?_
      obtain ⟨t, it⟩ := y
      have hw := write_ok a x.ins t it m o (by have := hx.inP.2; omega) (by have := hx.outP.2; omega)
        (fun hn => ⟨by have := (hx.inN hn).2; omega, by have := (hx.outN hn).2; omega⟩)
        (fun hn ht => ⟨by have := (hx.inT hn ht).2; omega, by have := (hx.outT hn ht).2; omega⟩)
      show write a x.ins t it m o ≠ _
      rw [hw]; simp)
    (by
      rintro m o o' - hm ⟨l1, l2, l3⟩ h
      have hm : m < j.vertexCount := by omega
      obtain ⟨⟨t, it⟩, -, h⟩ := Blending.bind_ok h
      have hw := write_ok a x.ins t it m o (by have := hx.inP.2; omega) (by have := hx.outP.2; omega)
        (fun hn => ⟨by have := (hx.inN hn).2; omega, by have := (hx.outN hn).2; omega⟩)
        (fun hn ht => ⟨by have := (hx.inT hn ht).2; omega, by have := (hx.outT hn ht).2; omega⟩)
      change write a x.ins t it m o = _ at h
      rw [hw] at h
      cases h
      refine ⟨by simp [l1], ?_, ?_⟩
      · dsimp only; split <;> simp [l2]
      · dsimp only; split <;> simp [l3])
  unfold process
  dsimp only
  intro h
  split at h
  · next h' => exact this h'
  · cases h
  · cases h

omit [Div α] [Neg α] in
/-- With no overflow and with matrices, no job panics. -/
theorem run_noPanic (ck : Bool) (j : Job α) (s : State α) (hb : j.vertexCount * j.influences < 2 ^ 64)
    (hm : j.influences = 1 ∨ j.matrices ≠ none) : run ck j s ≠ .panic := by
  by_cases h0 : j.influences = 0
  · unfold run; rw [if_pos h0]; simp
  rw [run_eq ck j s (by omega)]
  by_cases h1 : j.influences = 1
  · rw [if_pos h1]
    cases hx : open1 (usesIt j) (attrsOf j) j s with
    | error f =>
      cases f with
      | panic => exact absurd hx (open1_panic _ _ _ _)
      | err e => simp [process]
    | ok x =>
      obtain ⟨ho, hix, hl⟩ := open1_ok hx
      exact process_panic _ _ _ _ _ x ho fun i hi => gather1_panic _ _ _ _ (by omega)
  · rw [if_neg h1]
    cases hx : openN ck j.influences (usesIt j) (attrsOf j) j s with
    | error f =>
      cases f with
      | panic => exact absurd hx (openN_panic hb (hm.resolve_left h1))
      | err e => simp [process]
    | ok x =>
      obtain ⟨ho, ⟨hix, hl⟩, hws, hlw⟩ := openN_ok hb hx
      refine process_panic _ _ _ _ _ x ho fun i hi => ?_
      have hle : (i + 1) * j.influences ≤ j.vertexCount * j.influences := Nat.mul_le_mul_right _ hi
      rw [Nat.succ_mul] at hle
      have hle' : (i + 1) * (j.influences - 1) ≤ j.vertexCount * (j.influences - 1) := Nat.mul_le_mul_right _ hi
      rw [Nat.succ_mul] at hle'
      exact gather_panic _ _ _ _ _ _ _ (by omega) (by omega) (by omega) (by omega)

end Ozz.Skinning
