import Verif.Proofs.SharedExec

/-! Helper lemmas: the skinning job on shared buffers, running alone. -/

namespace Ozz.Shared

open Spec.Shared

set_option linter.unusedSectionVars false

variable {α : Type} [Add α] [Sub α] [Mul α] [Div α] [Neg α] [NumOps α] {cell : Bool} {s : Store (Elem α)}

/-- The program ended with the fault, having changed nothing. -/
def Fails (s : Store (Elem α)) (f : Fault) (e : End (Elem α) Reply) : Prop :=
  match f with
  | .err er => e = .done (.error er) s
  | .panic => e = .died s

/-- The program `p` computes `r` and goes on with guards satisfying `Q`. -/
def Sim {β : Type} (cell : Bool) (s : Store (Elem α)) (r : Res β) (Q : β → List (Guard Ref) → Prop)
    (p : (β → List (Guard Ref) → Prog (Elem α) Reply) → Prog (Elem α) Reply) (held : List (Guard Ref)) : Prop :=
  match r with
  | .error f => ∀ k, Fails s f (exec cell (p k) held s)
  | .ok b => ∃ held', Q b held' ∧ ∀ k, exec cell (p k) held s = exec cell (k b held') held' s

theorem Sim.bind {β γ : Type} {r : Res β} {f : β → Res γ} {Q : β → List (Guard Ref) → Prop}
    {Q' : γ → List (Guard Ref) → Prop}
    {p : (β → List (Guard Ref) → Prog (Elem α) Reply) → Prog (Elem α) Reply}
    {p' : β → List (Guard Ref) → (γ → List (Guard Ref) → Prog (Elem α) Reply) → Prog (Elem α) Reply}
    {held : List (Guard Ref)} (h : Sim cell s r Q p held)
    (h' : ∀ b held', Q b held' → Sim cell s (f b) Q' (p' b held') held') :
    Sim cell s (r >>= f) Q' (fun k => p (fun b held => p' b held k)) held := by
  cases r with
  | error e => intro k; exact h _
  | ok b =>
    obtain ⟨held', hq, hk⟩ := h
    have h' := h' b held' hq
    show Sim cell s (f b) Q' _ held
    cases hf : f b with
    | error e =>
      rw [hf] at h'
      intro k
      rw [hk]
      exact h' k
    | ok c =>
      rw [hf] at h'
      obtain ⟨held'', hq', hk'⟩ := h'
      exact ⟨held'', hq', fun k => by rw [hk, hk']⟩

theorem Sim.pure {β : Type} {b : β} {Q : β → List (Guard Ref) → Prop} {held : List (Guard Ref)} (h : Q b held) :
    Sim cell s (Pure.pure b) Q (fun k => k b held) held := ⟨held, h, fun _ => rfl⟩

theorem Sim.mono {β : Type} {r : Res β} {Q Q' : β → List (Guard Ref) → Prop}
    {p : (β → List (Guard Ref) → Prog (Elem α) Reply) → Prog (Elem α) Reply} {held : List (Guard Ref)}
    (h : Sim cell s r Q p held) (hq : ∀ b held, Q b held → Q' b held) : Sim cell s r Q' p held := by
  cases r with
  | error e => exact h
  | ok b => obtain ⟨held', hq', hk⟩ := h; exact ⟨held', hq _ _ hq', hk⟩

/-- Only vector buffers in `W` are held for writing, and of the vector buffers only those in `L`
or `W` are held. -/
structure VecInv (L W : List (Option Nat)) (held : List (Guard Ref)) : Prop where
  wr : ∀ g ∈ held, g.2 = .wr → ∃ n, g.1 = .vec n ∧ some n ∈ W
  vec : ∀ g ∈ held, ∀ n, g.1 = .vec n → some n ∈ L ∨ some n ∈ W

theorem fold_unwind_rd {W : List (Option Nat)} {L : List (Option Nat)} :
    ∀ {held : List (Guard Ref)} {s : Store (Elem α)}, VecInv L W held →
    ∀ r, (∀ n, r = .vec n → some n ∉ W) → (held.foldl Store.unwind s) r = s r := by
  intro held
  induction held with
  | nil => intro s _ r _; rfl
  | cons g held ih =>
    intro s h r hr
    have h' : VecInv L W held :=
      ⟨fun g hg => h.wr g (List.mem_cons_of_mem _ hg), fun g hg => h.vec g (List.mem_cons_of_mem _ hg)⟩
    rw [List.foldl_cons, ih h' r hr, Store.unwind]
    split
    · rename_i hw
      obtain ⟨n, e, hn⟩ := h.wr g List.mem_cons_self hw
      have hne : r ≠ g.1 := fun e' => hr n (e'.trans e) hn
      rw [Store.poison, Function.update_of_ne hne]
    · rfl

theorem VecInv.unwind {L : List (Option Nat)} {held : List (Guard Ref)} (h : VecInv L [] held) :
    held.foldl Store.unwind s = s := by
  funext r
  exact fold_unwind_rd h r (fun _ _ => by simp)

theorem sim_stop {β : Type} {L : List (Option Nat)} {held : List (Guard Ref)} {f : Fault}
    (h : f = .panic → VecInv L [] held) {Q : β → List (Guard Ref) → Prop} :
    Sim cell s (.error f) Q (fun _ => stop held f) held := by
  intro k
  cases f with
  | err e => exact exec_give _ _
  | panic =>
    show exec cell .panic held s = _
    rw [exec]
    split
    · rfl
    · rw [(h rfl).unwind]

/-- What opening a buffer gives. -/
def opened {A : Type} (miss : Fault) (b : Skinning.Buf A) : Res (List A) :=
  match b with
  | none => .error miss
  | some (.error e) => .error (.err e)
  | some (.ok xs) => .ok xs

/-- The guards after opening buffer `b`. -/
structure Now (c : Nat → Ref) (m : Mode) (b : Option Nat) (held held' : List (Guard Ref)) : Prop where
  ex : ∃ n, b = some n ∧ held' = (c n, m) :: held ∧ (s (c n)).poisoned = false

theorem sim_open {A : Type} {c : Nat → Ref} {get : ∀ n, Elem α (c n) → List A} {m : Mode} {miss : Fault}
    {b : Option Nat} {L : List (Option Nat)} {held : List (Guard Ref)} {B : Skinning.Buf A}
    (hB : B = b.map fun n => (bufOf s (c n)).map (get n)) (hroom : ∀ n, b = some n → Room (c n) m held)
    (hm : miss = .panic → VecInv L [] held) :
    Sim cell s (opened miss B) (fun _ held' => Now (s := s) c m b held held')
      (fun k => openBuf c get m miss b held k) held := by
  subst hB
  cases b with
  | none => exact sim_stop (L := L) hm
  | some n =>
    cases hb : bufOf s (c n) with
    | error e =>
      have : opened miss ((some n).map fun n => (bufOf s (c n)).map (get n)) = .error (.err e) := by
        rw [Option.map_some, hb]; rfl
      rw [this]
      intro k
      unfold openBuf
      obtain ⟨h, rfl⟩ := exec_lock_err (cell := cell) (X := Reply) (hroom n rfl) hb (k := _)
      rw [h]
      exact exec_give _ _
    | ok v =>
      have : opened miss ((some n).map fun n => (bufOf s (c n)).map (get n)) = .ok (get n v) := by
        rw [Option.map_some, hb]; rfl
      rw [this]
      refine ⟨_, ⟨n, rfl, rfl, ?_⟩, fun k => ?_⟩
      · unfold bufOf at hb
        split at hb
        · cases hb
        · rename_i hp; simpa using hp
      · unfold openBuf
        rw [exec_lock_ok (hroom n rfl) hb]

theorem unpack_eq {A : Type} (b : Skinning.Buf A) (size : Nat) :
    Skinning.unpack b size = opened (.err .invalidJob) b >>= fun xs =>
      if xs.length < size then .error (.err .invalidJob) else .ok xs := by
  rcases b with _ | _ | xs <;> rfl

theorem sim_unpack {A : Type} {c : Nat → Ref} {get : ∀ n, Elem α (c n) → List A} {m : Mode}
    {b : Option Nat} {size : Nat} {held : List (Guard Ref)} {B : Skinning.Buf A}
    (hB : B = b.map fun n => (bufOf s (c n)).map (get n)) (hroom : ∀ n, b = some n → Room (c n) m held) :
    Sim cell s (Skinning.unpack B size) (fun _ held' => Now (s := s) c m b held held')
      (fun k => unpackBuf c get m b size held k) held := by
  rw [unpack_eq]
  unfold unpackBuf
  refine Sim.bind (Q := fun _ held' => Now (s := s) c m b held held')
    (p' := fun xs held k => if xs.length < size then give held (.error .invalidJob) else k xs held)
    (sim_open (L := []) (miss := .err .invalidJob) hB hroom (fun h => by cases h)) (fun xs held' h => ?_)
  split
  · intro k
    exact exec_give _ _
  · exact ⟨held', h, fun k => rfl⟩

theorem sim_unpackIf {A : Type} {on : Bool} {c : Nat → Ref} {get : ∀ n, Elem α (c n) → List A} {m : Mode}
    {b : Option Nat} {size : Nat} {held : List (Guard Ref)} {B : Skinning.Buf A}
    (hB : B = b.map fun n => (bufOf s (c n)).map (get n)) (hroom : ∀ n, b = some n → Room (c n) m held) :
    Sim cell s (Skinning.unpackIf on B size)
      (fun _ held' => (on = true → Now (s := s) c m b held held') ∧ (on = false → held' = held))
      (fun k => unpackBufIf on c get m b size held k) held := by
  cases on with
  | false => exact ⟨held, ⟨by simp, fun _ => rfl⟩, fun _ => rfl⟩
  | true => exact (sim_unpack hB hroom).mono (fun _ _ h => ⟨fun _ => h, by simp⟩)

theorem inv_rd {L W : List (Option Nat)} {held held' : List (Guard Ref)} {b : Option Nat}
    (h : VecInv L W held) (hn : Now (s := s) .vec .rd b held held') : VecInv (b :: L) W held' := by
  obtain ⟨n, rfl, rfl, -⟩ := hn
  refine ⟨fun g hg hw => ?_, fun g hg n' e => ?_⟩
  · rcases List.mem_cons.1 hg with rfl | hg
    · cases hw
    · exact h.wr g hg hw
  · rcases List.mem_cons.1 hg with rfl | hg
    · cases e; exact .inl List.mem_cons_self
    · exact (h.vec g hg n' e).imp (List.mem_cons_of_mem _) id

theorem inv_wr {L W : List (Option Nat)} {held held' : List (Guard Ref)} {b : Option Nat}
    (h : VecInv L W held) (hn : Now (s := s) .vec .wr b held held') : VecInv L (b :: W) held' := by
  obtain ⟨n, rfl, rfl, -⟩ := hn
  refine ⟨fun g hg hw => ?_, fun g hg n' e => ?_⟩
  · rcases List.mem_cons.1 hg with rfl | hg
    · exact ⟨n, rfl, List.mem_cons_self⟩
    · obtain ⟨n', e, hn'⟩ := h.wr g hg hw
      exact ⟨n', e, List.mem_cons_of_mem _ hn'⟩
  · rcases List.mem_cons.1 hg with rfl | hg
    · cases e; exact .inr List.mem_cons_self
    · exact (h.vec g hg n' e).imp id (List.mem_cons_of_mem _)

theorem inv_other {L W : List (Option Nat)} {held held' : List (Guard Ref)} {b : Option Nat} {c : Nat → Ref}
    (hc : ∀ m n, c m ≠ .vec n) (h : VecInv L W held) (hn : Now (s := s) c .rd b held held') : VecInv L W held' := by
  obtain ⟨n, rfl, rfl, -⟩ := hn
  refine ⟨fun g hg hw => ?_, fun g hg n' e => ?_⟩
  · rcases List.mem_cons.1 hg with rfl | hg
    · cases hw
    · exact h.wr g hg hw
  · rcases List.mem_cons.1 hg with rfl | hg
    · exact absurd e (hc _ _)
    · exact h.vec g hg n' e

theorem inv_weaken {L W L' W' : List (Option Nat)} {held : List (Guard Ref)} (h : VecInv L W held)
    (hl : ∀ n, some n ∈ L → some n ∈ L') (hw : ∀ n, some n ∈ W → some n ∈ W') : VecInv L' W' held :=
  ⟨fun g hg e => by
    obtain ⟨n, e', hn⟩ := h.wr g hg e
    exact ⟨n, e', hw _ hn⟩, fun g hg n e => (h.vec g hg n e).imp (hl n) (hw n)⟩

theorem room_rd {L : List (Option Nat)} {held : List (Guard Ref)} (h : VecInv L [] held) (r : Ref) : Room r .rd held := by
  intro g hg e hc
  rcases hc with hc | hc
  · cases hc
  · obtain ⟨n, -, hn⟩ := h.wr g hg hc
    cases hn

theorem room_wr {L W : List (Option Nat)} {held : List (Guard Ref)} (h : VecInv L W held) {n : Nat}
    (hl : some n ∉ L) (hw : some n ∉ W) : Room (.vec n) .wr held := by
  intro g hg e _
  rcases h.vec g hg n e with h | h
  · exact hl h
  · exact hw h

theorem view_id {A : Type} (b : Option Nat) (f : Nat → Except OzzError (List A)) :
    b.map f = b.map fun n => (f n).map fun v => v := by
  cases b with
  | none => rfl
  | some n => rw [Option.map_some, Option.map_some]; cases f n <;> rfl

/-- The guards on the outputs. -/
structure OutHeld (s : Store (Elem α)) (a : Skinning.Attrs) (j : SkinJob) (held : List (Guard Ref)) : Prop where
  inv : VecInv [j.inTangents, j.inNormals, j.inPositions] [j.outTangents, j.outNormals, j.outPositions] held
  pos : ∃ n, j.outPositions = some n ∧ (.vec n, .wr) ∈ held ∧ (s (.vec n)).poisoned = false
  nor : a.normals = true → ∃ n, j.outNormals = some n ∧ (.vec n, .wr) ∈ held ∧ (s (.vec n)).poisoned = false
  tan : (a.normals && a.tangents) = true →
    ∃ n, j.outTangents = some n ∧ (.vec n, .wr) ∈ held ∧ (s (.vec n)).poisoned = false

theorem sim_attrs (a : Skinning.Attrs) (j : SkinJob) (hj : j.Apart) {held : List (Guard Ref)} (h : VecInv [] [] held) :
    Sim cell s (Skinning.openAttrs a (j.see s) (j.outs s)) (fun _ held' => OutHeld s a j held')
      (fun k => attrBufs a j held (fun ins outs held => k (ins, outs) held)) held := by
  unfold Skinning.openAttrs attrBufs
  refine Sim.bind (sim_unpack (view_id _ _) (fun n _ => room_rd h _)) (fun ip h1 n1 => ?_)
  have i1 := inv_rd h n1
  refine Sim.bind (sim_unpackIf (view_id _ _) (fun n _ => room_rd i1 _)) (fun inn h2 n2 => ?_)
  have i2 : VecInv [j.inNormals, j.inPositions] [] h2 := by
    cases hc : a.normals with
    | true => exact inv_rd i1 (n2.1 hc)
    | false => rw [n2.2 hc]; exact inv_weaken i1 (fun n hn => List.mem_cons_of_mem _ hn) (fun n hn => hn)
  refine Sim.bind (sim_unpackIf (view_id _ _) (fun n _ => room_rd i2 _)) (fun it h3 n3 => ?_)
  have i3 : VecInv [j.inTangents, j.inNormals, j.inPositions] [] h3 := by
    cases hc : a.normals && a.tangents with
    | true => exact inv_rd i2 (n3.1 hc)
    | false => rw [n3.2 hc]; exact inv_weaken i2 (fun n hn => List.mem_cons_of_mem _ hn) (fun n hn => hn)
  refine Sim.bind (sim_unpack (view_id _ _) (fun n hn => room_wr i3 ?_ (by simp))) (fun op h4 n4 => ?_)
  · have := hj.pIn n hn
    simp only [List.mem_cons, List.not_mem_nil, or_false, not_or]
    exact ⟨this.2.2.symm, this.2.1.symm, this.1.symm⟩
  have i4 := inv_wr i3 n4
  refine Sim.bind (sim_unpackIf (view_id _ _) (fun n hn => room_wr i4 ?_ ?_)) (fun on h5 n5 => ?_)
  · have := hj.nIn n hn
    simp only [List.mem_cons, List.not_mem_nil, or_false, not_or]
    exact ⟨this.2.2.symm, this.2.1.symm, this.1.symm⟩
  · simp only [List.mem_cons, List.not_mem_nil, or_false]
    exact fun e => hj.pn n e.symm hn
  have i5 : VecInv [j.inTangents, j.inNormals, j.inPositions] [j.outNormals, j.outPositions] h5 := by
    cases hc : a.normals with
    | true => exact inv_wr i4 (n5.1 hc)
    | false => rw [n5.2 hc]; exact inv_weaken i4 (fun n hn => hn) (fun n hn => List.mem_cons_of_mem _ hn)
  refine Sim.bind (sim_unpackIf (view_id _ _) (fun n hn => room_wr i5 ?_ ?_)) (fun ot h6 n6 => ?_)
  · have := hj.tIn n hn
    simp only [List.mem_cons, List.not_mem_nil, or_false, not_or]
    exact ⟨this.2.2.symm, this.2.1.symm, this.1.symm⟩
  · simp only [List.mem_cons, List.not_mem_nil, or_false, not_or]
    exact ⟨fun e => hj.nt n e.symm hn, fun e => hj.pt n e.symm hn⟩
  have i6 : VecInv [j.inTangents, j.inNormals, j.inPositions] [j.outTangents, j.outNormals, j.outPositions] h6 := by
    cases hc : a.normals && a.tangents with
    | true => exact inv_wr i5 (n6.1 hc)
    | false => rw [n6.2 hc]; exact inv_weaken i5 (fun n hn => hn) (fun n hn => List.mem_cons_of_mem _ hn)
  have s5 : ∀ g ∈ h4, g ∈ h5 := by
    cases hc : a.normals with
    | true => obtain ⟨_, _, e, _⟩ := n5.1 hc; intro g hg; rw [e]; exact List.mem_cons_of_mem _ hg
    | false => rw [n5.2 hc]; exact fun g h => h
  have s6 : ∀ g ∈ h5, g ∈ h6 := by
    cases hc : a.normals && a.tangents with
    | true => obtain ⟨_, _, e, _⟩ := n6.1 hc; intro g hg; rw [e]; exact List.mem_cons_of_mem _ hg
    | false => rw [n6.2 hc]; exact fun g h => h
  refine Sim.pure ⟨i6, ?_, fun hc => ?_, fun hc => ?_⟩
  · obtain ⟨n, e, e', hp⟩ := n4
    exact ⟨n, e, s6 _ (s5 _ (e' ▸ List.mem_cons_self)), hp⟩
  · obtain ⟨n, e, e', hp⟩ := n5.1 hc
    exact ⟨n, e, s6 _ (e' ▸ List.mem_cons_self), hp⟩
  · obtain ⟨n, e, e', hp⟩ := n6.1 hc
    exact ⟨n, e, e' ▸ List.mem_cons_self, hp⟩

theorem sim_tail (a : Skinning.Attrs) (j : SkinJob) (hj : j.Apart) {held : List (Guard Ref)} (h : VecInv [] [] held)
    (f : Skinning.Ins α → Skinning.Outs α → Skinning.Opened α) :
    Sim cell s (do
        let (ins, outs) ← Skinning.openAttrs a (j.see s) (j.outs s)
        return f ins outs) (fun _ held' => OutHeld s a j held')
      (fun k => attrBufs a j held (fun ins outs held => k (f ins outs) held)) held := by
  have h := sim_attrs (cell := cell) (s := s) a j hj h
  generalize Skinning.openAttrs a (j.see s) (j.outs s) = r at h ⊢
  cases r with
  | error e => intro k; exact h (fun x held => k (f x.1 x.2) held)
  | ok x =>
    obtain ⟨held', ho, hk⟩ := h
    exact ⟨held', ho, fun k => hk (fun x held => k (f x.1 x.2) held)⟩

/-- The buffers after `putOuts`. -/
def afterOuts (a : Skinning.Attrs) (j : SkinJob) (o : Skinning.Outs α) (s : Store (Elem α)) : Store (Elem α) :=
  let put := fun (on : Bool) (b : Option Nat) (v : List (Skinning.P3 α)) (s : Store (Elem α)) =>
    match on, b with
    | true, some n => s.put (.vec n) v
    | _, _ => s
  put (a.normals && a.tangents) j.outTangents o.tangents <|
  put a.normals j.outNormals o.normals <|
  put true j.outPositions o.positions s

theorem exec_putOuts {a : Skinning.Attrs} {j : SkinJob} {o : Skinning.Outs α} {held : List (Guard Ref)}
    (h : OutHeld s a j held) (k : Prog (Elem α) Reply) :
    exec cell (putOuts a j o k) held s = exec cell k held (afterOuts a j o s) := by
  obtain ⟨-, ⟨n, e, hn, -⟩, h2, h3⟩ := h
  unfold putOuts afterOuts
  simp only [e, putIf]
  rw [exec_put hn]
  cases hc : a.normals with
  | false => rfl
  | true =>
    obtain ⟨n2, e2, hn2, -⟩ := h2 hc
    simp only [e2, Bool.true_and]
    rw [exec_put hn2]
    cases hd : a.tangents with
    | false => rfl
    | true =>
      obtain ⟨n3, e3, hn3, -⟩ := h3 (by rw [hc, hd]; rfl)
      simp only [e3]
      rw [exec_put hn3]

theorem afterOuts_other (a : Skinning.Attrs) (j : SkinJob) (o : Skinning.Outs α) (s : Store (Elem α)) (r : Ref)
    (h : ¬ j.IsOut r) : afterOuts a j o s r = s r := by
  unfold afterOuts
  have key : ∀ (on : Bool) (b : Option Nat) (v : List (Skinning.P3 α)) (s : Store (Elem α)),
      (∀ n, b = some n → r ≠ .vec n) →
      (match on, b with
        | true, some n => s.put (.vec n) v
        | _, _ => s) r = s r := by
    intro on b v s hb
    split
    · rw [put_ne _ (hb _ rfl)]
    · rfl
  dsimp only
  rw [key _ _ _ _ (fun n e e' => h ⟨n, e', .inr (.inr e)⟩), key _ _ _ _ (fun n e e' => h ⟨n, e', .inr (.inl e)⟩),
    key _ _ _ _ (fun n e e' => h ⟨n, e', .inl e⟩)]

theorem bufOf_of_not {r : Ref} (h : (s r).poisoned = false) : bufOf s r = .ok (s r).data := by
  rw [bufOf, if_neg (by simp [h])]

theorem vec_ne {m n : Nat} (h : m ≠ n) : Ref.vec m ≠ Ref.vec n := fun e => h (by cases e; rfl)

theorem outs_after {a : Skinning.Attrs} {j : SkinJob} {o : Skinning.Outs α} {held : List (Guard Ref)}
    (hj : j.Apart) (h : OutHeld s a j held) : j.outs (afterOuts a j o s) = Skinning.putBack a (j.outs s) o := by
  obtain ⟨-, ⟨n, e, -, hn⟩, h2, h3⟩ := h
  have hn := bufOf_of_not hn
  unfold SkinJob.outs Skinning.putBack afterOuts
  simp only [e]
  cases hc : a.normals with
  | false =>
    simp only [Bool.false_and]
    congr 1
    · rw [Option.map_some, bufOf_put_self s hn]
    · cases e2 : j.outNormals with
      | none => rfl
      | some m =>
        have : m ≠ n := fun h => hj.pn n e (h ▸ e2)
        rw [Option.map_some, bufOf_put_ne s (vec_ne this)]; rfl
    · cases e2 : j.outTangents with
      | none => rfl
      | some m =>
        have : m ≠ n := fun h => hj.pt n e (h ▸ e2)
        rw [Option.map_some, bufOf_put_ne s (vec_ne this)]; rfl
  | true =>
    obtain ⟨n2, e2, -, hn2⟩ := h2 hc
    have hn2 := bufOf_of_not hn2
    have d2 : n2 ≠ n := fun h => hj.pn n e (h ▸ e2)
    simp only [e2, Bool.true_and, if_true]
    have hn2' := bufOf_put_ne s (vec_ne d2) o.positions
    rw [hn2] at hn2'
    cases hd : a.tangents with
    | false =>
      simp only [Bool.false_eq_true, if_false]
      congr 1
      · rw [Option.map_some, bufOf_put_ne _ (vec_ne d2.symm), bufOf_put_self s hn]
      · rw [Option.map_some, bufOf_put_self _ hn2']
      · cases e3 : j.outTangents with
        | none => rfl
        | some m =>
          have d : m ≠ n := fun h => hj.pt n e (h ▸ e3)
          have d' : m ≠ n2 := fun h => hj.nt n2 e2 (h ▸ e3)
          rw [Option.map_some, bufOf_put_ne _ (vec_ne d'), bufOf_put_ne s (vec_ne d)]; rfl
    | true =>
      obtain ⟨n3, e3, -, hn3⟩ := h3 (by rw [hc, hd]; rfl)
      have hn3 := bufOf_of_not hn3
      have d : n3 ≠ n := fun h => hj.pt n e (h ▸ e3)
      have d' : n3 ≠ n2 := fun h => hj.nt n2 e2 (h ▸ e3)
      simp only [e3, if_true]
      have hn3' := bufOf_put_ne (s.put (.vec n) o.positions) (vec_ne d') o.normals
      rw [bufOf_put_ne s (vec_ne d), hn3] at hn3'
      congr 1
      · rw [Option.map_some, bufOf_put_ne _ (vec_ne d.symm), bufOf_put_ne _ (vec_ne d2.symm), bufOf_put_self s hn]
      · rw [Option.map_some, bufOf_put_ne _ (vec_ne d'.symm), bufOf_put_self _ hn2']
      · rw [Option.map_some, bufOf_put_self _ hn3']

theorem exec_skinLoop (torn : Skinning.Outs α → Skinning.Outs α)
    (g : Skinning.Opened α → Nat → Res (Mat4 α × Option (Mat4 α))) (a : Skinning.Attrs) {j : SkinJob} (hj : j.Apart)
    (x : Skinning.Opened α) {held : List (Guard Ref)} (h : OutHeld s a j held) :
    SkinMeets s j (Skinning.process g a (j.see s) (j.outs s) (.ok x)) (exec cell (skinLoop torn g a j x held) held s) := by
  unfold Skinning.process skinLoop
  dsimp only
  have hv : (j.see s).vertexCount = j.vertexCount := rfl
  rw [hv]
  generalize Skinning.vertexLoop (fun i o => do
      let (t, it) ← g x i
      Skinning.write a x.ins t it i o) j.vertexCount 0 x.outs = oc
  cases oc with
  | ok o =>
    dsimp only
    rw [exec_putOuts h, exec_give]
    exact ⟨_, rfl, outs_after hj h, afterOuts_other a j o s⟩
  | err e o =>
    dsimp only
    rw [exec_putOuts h, exec_give]
    exact ⟨_, rfl, outs_after hj h, afterOuts_other a j o s⟩
  | panic =>
    dsimp only
    rw [exec_putOuts h, exec]
    refine ⟨_, rfl, fun r hr => ?_⟩
    split
    · exact afterOuts_other a j _ s r hr
    · rw [fold_unwind_rd h.inv r ?_]
      · exact afterOuts_other a j _ s r hr
      · rintro n rfl hn
        simp only [List.mem_cons, List.not_mem_nil, or_false] at hn
        exact hr ⟨n, rfl, by rcases hn with h | h | h <;> simp [h]⟩

/-- From opening to the end. -/
theorem meets_of_sim {torn : Skinning.Outs α → Skinning.Outs α}
    {g : Skinning.Opened α → Nat → Res (Mat4 α × Option (Mat4 α))} {a : Skinning.Attrs} {j : SkinJob} (hj : j.Apart)
    {r : Res (Skinning.Opened α)}
    {p : (Skinning.Opened α → List (Guard Ref) → Prog (Elem α) Reply) → Prog (Elem α) Reply}
    (h : Sim cell s r (fun _ held => OutHeld s a j held) p []) :
    SkinMeets s j (Skinning.process g a (j.see s) (j.outs s) r) (exec cell (p (skinLoop torn g a j)) [] s) := by
  cases r with
  | error f =>
    have h := h (skinLoop torn g a j)
    cases f with
    | err e => exact ⟨s, h, rfl, fun _ _ => rfl⟩
    | panic => exact ⟨s, h, fun _ _ => rfl⟩
  | ok x =>
    obtain ⟨held, ho, hk⟩ := h
    rw [hk]
    exact exec_skinLoop torn g a hj x ho

theorem open_eq {A : Type} (b : Skinning.Buf A) : Skinning.open' b = opened (.err .invalidJob) b := by
  rcases b with _ | _ | xs <;> rfl

theorem unwrap_eq {A : Type} (b : Skinning.Buf A) : Skinning.unwrapBuf b = opened .panic b := by
  rcases b with _ | _ | xs <;> rfl

theorem sim_it (it : Bool) (j : SkinJob) {held : List (Guard Ref)} (h : VecInv [] [] held) :
    Sim cell s (Skinning.openIt it (j.see s)) (fun _ held' => VecInv [] [] held')
      (fun k => itBuf it j.itMatrices held k) held := by
  unfold Skinning.openIt itBuf
  cases it with
  | false => exact ⟨held, h, fun _ => rfl⟩
  | true =>
    simp only [if_true]
    rw [open_eq]
    refine Sim.bind (p' := fun xs held k => k (some xs) held)
      (sim_open (L := []) (miss := .err .invalidJob) (view_id _ _) (fun n _ => room_rd h _) (fun h => by cases h)) (fun xs held' hn => ?_)
    exact Sim.pure (inv_other (by simp) h hn)

theorem inv_nil : VecInv [] [] [] := ⟨fun g h => by simp at h, fun g h => by simp at h⟩

theorem Sim.attempt {β γ : Type} {r : Res β} {f : β → Res γ} {Q : γ → List (Guard Ref) → Prop}
    {p : β → (γ → List (Guard Ref) → Prog (Elem α) Reply) → Prog (Elem α) Reply} {held : List (Guard Ref)}
    (h : VecInv [] [] held) (h' : ∀ b, Sim cell s (f b) Q (p b) held) :
    Sim cell s (r >>= f) Q (fun k => Shared.attempt r held (fun b => p b k)) held := by
  cases r with
  | ok b => exact h' b
  | error e => exact sim_stop (fun _ => h)

theorem exec_skin1 (torn : Skinning.Outs α → Skinning.Outs α) (it : Bool) (a : Skinning.Attrs) {j : SkinJob}
    (hj : j.Apart) :
    SkinMeets s j (Skinning.process (fun x i => Skinning.gather1 x.matrices x.itMatrices x.indices i) a (j.see s)
      (j.outs s) (Skinning.open1 it a (j.see s) (j.outs s))) (exec cell (skin1Prog torn it a j) [] s) := by
  refine meets_of_sim hj (p := fun k =>
    openBuf .mat (fun _ v => v) .rd (.err .invalidJob) j.matrices [] fun ms held =>
    itBuf it j.itMatrices held fun its held =>
    unpackBuf .idx (fun _ v => v) .rd j.indices j.vertexCount held fun indices held =>
    attrBufs a j held fun ins outs held => k ⟨ms, its, indices, [], ins, outs⟩ held) ?_
  unfold Skinning.open1
  rw [open_eq]
  refine Sim.bind (sim_open (L := []) (miss := .err .invalidJob) (view_id _ _) (fun n _ => room_rd inv_nil _) (fun h => by cases h))
    (fun ms h1 n1 => ?_)
  have i1 := inv_other (by simp) inv_nil n1
  refine Sim.bind (sim_it it j i1) (fun its h2 i2 => ?_)
  refine Sim.bind (sim_unpack (view_id _ _) (fun n _ => room_rd i2 _)) (fun indices h3 n3 => ?_)
  have i3 := inv_other (by simp) i2 n3
  exact sim_tail a j hj i3 (fun ins outs => ⟨ms, its, indices, [], ins, outs⟩)

theorem exec_skinN (ck : Bool) (torn : Skinning.Outs α → Skinning.Outs α) (n : Nat) (it : Bool) (a : Skinning.Attrs)
    {j : SkinJob} (hj : j.Apart) :
    SkinMeets s j (Skinning.process (fun x i => Skinning.gather ck n x.matrices x.itMatrices x.indices x.weights i) a
      (j.see s) (j.outs s) (Skinning.openN ck n it a (j.see s) (j.outs s)))
      (exec cell (skinNProg ck torn n it a j) [] s) := by
  refine meets_of_sim hj (p := fun k =>
    openBuf .mat (fun _ v => v) .rd .panic j.matrices [] fun ms held =>
    itBuf it j.itMatrices held fun its held =>
    attempt (Skinning.mulU ck j.vertexCount n) held fun need =>
    unpackBuf .idx (fun _ v => v) .rd j.indices need held fun indices held =>
    attempt (Skinning.mulU ck j.vertexCount (n - 1)) held fun need =>
    unpackBuf .num (fun _ v => v) .rd j.weights need held fun weights held =>
    attrBufs a j held fun ins outs held => k ⟨ms, its, indices, weights, ins, outs⟩ held) ?_
  unfold Skinning.openN
  have hv : (j.see s).vertexCount = j.vertexCount := rfl
  rw [unwrap_eq, hv]
  refine Sim.bind (sim_open (L := []) (view_id _ _) (fun n _ => room_rd inv_nil _)
    (fun _ => inv_nil)) (fun ms h1 n1 => ?_)
  have i1 := inv_other (by simp) inv_nil n1
  refine Sim.bind (sim_it it j i1) (fun its h2 i2 => ?_)
  refine Sim.attempt i2 (fun need => ?_)
  refine Sim.bind (sim_unpack (view_id _ _) (fun n _ => room_rd i2 _)) (fun indices h3 n3 => ?_)
  have i3 := inv_other (by simp) i2 n3
  refine Sim.attempt i3 (fun need => ?_)
  refine Sim.bind (sim_unpack (view_id _ _) (fun n _ => room_rd i3 _)) (fun weights h4 n4 => ?_)
  have i4 := inv_other (by simp) i3 n4
  exact sim_tail a j hj i4 (fun ins outs => ⟨ms, its, indices, weights, ins, outs⟩)

theorem exec_skin (ck : Bool) (torn : Skinning.Outs α → Skinning.Outs α) {j : SkinJob} (hj : j.Apart) :
    SkinMeets s j (Skinning.run ck (j.see s) (j.outs s)) (exec cell (skinProg ck torn j) [] s) := by
  unfold skinProg Skinning.run
  have hi : (j.see s).influences = j.influences := rfl
  have hbr : Skinning.branchOf (j.see s) = j.branch := by
    simp only [Skinning.branchOf, SkinJob.branch, SkinJob.see, Option.isSome_map]
  rw [hi, hbr]
  split
  · exact ⟨s, rfl, rfl, fun _ _ => rfl⟩
  · cases Skinning.table j.branch with
    | none => exact ⟨s, by cases cell <;> rfl, fun _ _ => rfl⟩
    | some x =>
      obtain ⟨k, it, a⟩ := x
      cases k with
      | one => exact exec_skin1 torn it a hj
      | const n => exact exec_skinN ck torn n it a hj
      | any => exact exec_skinN ck torn _ it a hj

end Ozz.Shared
