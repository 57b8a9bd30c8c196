import Verif.SimOps

/-!
# Following a piece of syntax

What it means that the code of a piece of syntax follows the evaluator, and the combination of such facts.
-/

namespace Dice.Sim

open Src (SEnv State Out S Jump)

/-- Before a piece of syntax. -/
structure Here (C : Cx) (K : Nat → Prop) (g g' : Env) (c : Code) (W : Wd) (ts : List Value) (R : Prop) (σ : State) (m : VM) :
    Prop where
  good : Good C g
  dest : Dest C K g'
  fit : ∀ b, c.HasFn b → Fits b
  seg : Matches g W.seg
  st : St C K W ts σ m
  ret : R → ts = [] ∧ g.temps = 0

/-- After an expression. -/
def Post (C : Cx) (K : Nat → Prop) (W : Wd) (g' : Env) (ts : List Value) (n : Nat) (r : Value × SEnv) (σ' : State) (m' : VM) :
    Prop :=
  ∃ W', W.Le n W' ∧ n ≤ σ'.store.length ∧ r.2 = W'.seg ++ C.out ∧ Matches g' W'.seg ∧ St C K W' (r.1 :: ts) σ' m'

/-- The variables of an expression that is left early may all be captured. -/
def Left (C : Cx) (K : Nat → Prop) (W : Wd) (ts : List Value) (n : Nat) (ρ' : SEnv) (σ' : State) (m' : VM) : Prop :=
  ∃ W', W.Le n W' ∧ n ≤ σ'.store.length ∧ ρ' = W'.seg ++ C.out ∧ St C (fun s => K s ∨ W.seg.length ≤ s) W' ts σ' m'

/-- After an expression that is left early. -/
def Jmp (C : Cx) (K : Nat → Prop) (W : Wd) (ts : List Value) (n : Nat) (j : Jump) (σ' : State) (m' : VM) : Prop :=
  match j with
  | .brk ρ' => Left C K W ts n ρ' σ' m'
  | .cont ρ' => Left C K W ts n ρ' σ' m'
  | .ret ρ' v => Left C K W (v :: ts) n ρ' σ' m'
  | .bad _ => True
  | .exit ρ' => Left C K W (.null :: ts) n ρ' σ' m'

section
variable {C : Cx} {K : Nat → Prop} {W W1 : Wd} {ts : List Value} {σ σ1 : State} {m : VM} {w : World} {N : Nat} {R : Prop}
  {n n1 : Nat} {g g1 g' : Env} {x : X}

theorem Wd.Le.length (h : W.Le n W1) : W.seg.length ≤ W1.seg.length := by
  obtain ⟨ext, h1, -⟩ := h.seg
  rw [h1]; simp

theorem Wd.Le.seg_eq (h : W.Le n W1) (hl : W1.seg.length = W.seg.length) : W1.seg = W.seg := by
  obtain ⟨ext, h1, -⟩ := h.seg
  rw [h1, List.length_append] at hl
  have : ext = [] := List.length_eq_zero_iff.1 (by omega)
  rw [h1, this]; rfl

theorem Left.back {σ' : State} {ρ' : SEnv} (hle : W.Le n W1) (hn : n ≤ n1) (h : Left C K W1 ts n1 ρ' σ' m) :
    Left C K W ts n ρ' σ' m := by
  obtain ⟨W', h1, h2, h3, h4⟩ := h
  have hl := hle.length
  exact ⟨W', hle.trans hn h1, Nat.le_trans hn h2, h3, h4.weaken fun s _ hs => hs.imp id fun h => by omega⟩

theorem Jmp.back {σ' : State} {j : Jump} (hle : W.Le n W1) (hn : n ≤ n1) (h : Jmp C K W1 ts n1 j σ' m) :
    Jmp C K W ts n j σ' m := by
  cases j with
  | brk => exact Left.back hle hn h
  | cont => exact Left.back hle hn h
  | ret => exact Left.back hle hn h
  | bad => trivial
  | exit => exact Left.back hle hn h

theorem Post.back {σ' : State} {r : Value × SEnv} (hle : W.Le n W1) (hn : n ≤ n1) (h : Post C K W1 g' ts n1 r σ' m) :
    Post C K W g' ts n r σ' m := by
  obtain ⟨W', h1, h2, h3, h4⟩ := h
  exact ⟨W', hle.trans hn h1, Nat.le_trans hn h2, h3, h4⟩

theorem Done.back {σ' : State} {v : Value} (hle : W.Le n W1) (hs : W1.seg = W.seg) (hn : n ≤ n1)
    (h : Done C K W1 ts n1 v σ' m) : Done C K W ts n v σ' m := by
  obtain ⟨W', h1, h2, h3, h4⟩ := h
  exact ⟨W', hle.trans hn h1, h2.trans hs, Nat.le_trans hn h3, h4⟩

/-- What holds from a later point on holds from an earlier one. -/
theorem Sim.back {o : Out (Value × SEnv) × State} (hle : W.Le n W1) (hn : n ≤ n1)
    (h : Sim N R x m o (Norm (Post C K W1 g' ts n1)) (Jmp C K W1 ts n1)) :
    Sim N R x m o (Norm (Post C K W g' ts n)) (Jmp C K W ts n) :=
  h.mono (fun _ _ _ _ h => ⟨h.1, h.2.back hle hn⟩) id fun _ _ _ h => h.back hle hn

/-- After a value. -/
theorem Sim.finish {α : Type} {e : S α} {r : α → Value} {J : Jump → State → VM → Prop} (hle : W.Le n W1) (hn : n ≤ n1)
    (hm : Matches g' W1.seg) (h : Sim N R x m (e σ1) (Norm fun a => Done C K W1 ts n1 (r a)) J) :
    Sim N R x m ((e >>= fun a => pure (r a, W1.seg ++ C.out)) σ1) (Norm (Post C K W g' ts n)) J := by
  refine h.thenE ?_
  rintro a σ2 s m2 ⟨rfl, W2, h1, h2, h3, h4⟩
  exact ⟨_, _, rfl, rfl, W2, hle.trans hn h1, Nat.le_trans hn h3, by rw [h2], by rw [h2]; exact hm, h4⟩

/-- After a value that is not computed any more. -/
theorem Sim.value {v : Value} {J : Jump → State → VM → Prop} (hle : W.Le n W1) (hn : n ≤ n1) (hm : Matches g' W1.seg)
    (h : Sim N R x m (.ok (), σ1) (Norm fun (_ : Unit) => Done C K W1 ts n1 v) J) :
    Sim N R x m (.ok (v, W1.seg ++ C.out), σ1) (Norm (Post C K W g' ts n)) J :=
  Sim.finish (e := fun σ => (.ok (), σ)) (r := fun _ => v) hle hn hm h

/-- An instruction that only changes the stack. -/
theorem Sim.op1 {α : Type} {f : Frame} {ups : Option (List Nat)} {i : Instr} {o : Out α × State} {r : α → Value}
    {J : Jump → State → VM → Prop}
    (h : SimV (istep w 0 f ups i) m o (Norm fun a σ' m' => σ' = σ1 ∧ St C K W1 (r a :: ts) σ1 m')) :
    Sim N R (exec w f ups (.instr i)) m o (Norm fun a => Done C K W1 ts σ1.store.length (r a)) J :=
  .instr (h.mono (by rintro a _ s m ⟨rfl, rfl, h⟩; exact ⟨rfl, .same (Nat.le_refl _) h⟩))

theorem Sim.op2 {α : Type} {f : Frame} {ups : Option (List Nat)} {i : Instr} {o : Out α × State} {r : α → Value}
    {J : Jump → State → VM → Prop}
    (h : SimV (istep w 0 f ups i) m o (Norm fun a σ' m' => n1 ≤ σ'.store.length ∧ St C K W1 (r a :: ts) σ' m')) :
    Sim N R (exec w f ups (.instr i)) m o (Norm fun a => Done C K W1 ts n1 (r a)) J :=
  .instr (h.mono (by rintro a _ s m ⟨rfl, h1, h⟩; exact ⟨rfl, .same h1 h⟩))

theorem Sim.op0 {v : Value} {f : Frame} {ups : Option (List Nat)} {i : Instr} {J : Jump → State → VM → Prop}
    (h : Does (istep w 0 f ups i) m fun s m1 => s = .normal ∧ St C K W1 (v :: ts) σ1 m1) :
    Sim N R (exec w f ups (.instr i)) m (.ok (), σ1) (Norm fun (_ : Unit) => Done C K W1 ts σ1.store.length v) J :=
  .instr (.ok (h.mono fun _ _ h => ⟨h.1, .same (Nat.le_refl _) h.2⟩))

/-- The first of two expressions. -/
theorem Sim.sub {α : Type} {f : Frame} {ups : Option (List Nat)} {a b : Code} {e : S (Value × SEnv)} {k : Value × SEnv → S α}
    {Q : α → State → Sig → VM → Prop} {J : Jump → State → VM → Prop}
    (h : Sim N R (exec w f ups a) m (e σ) (Norm (Post C K W g1 ts n)) J)
    (hk : ∀ v W1 σ1 m1, W.Le n W1 → n ≤ σ1.store.length → Matches g1 W1.seg → St C K W1 (v :: ts) σ1 m1 →
      Sim N R (exec w f ups b) m1 (k (v, W1.seg ++ C.out) σ1) Q J) :
    Sim N R (exec w f ups (.seq a b)) m ((e >>= k) σ) Q J := by
  refine h.seq ?_
  rintro ⟨v, ρ⟩ σ1 m1 ⟨W1, h1, h2, h3, h4, h5⟩
  cases h3
  exact hk v W1 σ1 m1 h1 h2 h4 h5

/-- An operand. -/
theorem Sim.subOp {α : Type} {f : Frame} {ups : Option (List Nat)} {a b : Code} {e : S (Value × SEnv)} {k : Value × SEnv → S α}
    {Q : α → State → Sig → VM → Prop} {J J' : Jump → State → VM → Prop} {R' : Prop}
    (h : Sim N R' (exec w f ups a) m (e σ) (Norm (Post C K W g1 ts n)) J')
    (hk : ∀ v W1 σ1 m1, W.Le n W1 → n ≤ σ1.store.length → Matches g1 W1.seg → St C K W1 (v :: ts) σ1 m1 →
      Sim N R (exec w f ups b) m1 (k (v, W1.seg ++ C.out) σ1) Q J) :
    Sim N R (exec w f ups (.seq a b)) m ((S.operand e >>= k) σ) Q J :=
  Sim.sub (Sim.operand h) hk

/-- A value on the way. -/
theorem Sim.subV {α β : Type} {f : Frame} {ups : Option (List Nat)} {a b : Code} {e : S β} {r : β → Value} {k : β → S α}
    {Q : α → State → Sig → VM → Prop} {J : Jump → State → VM → Prop}
    (h : Sim N R (exec w f ups a) m (e σ) (Norm fun b => Done C K W ts n (r b)) J)
    (hk : ∀ v W1 σ1 m1, W.Le n W1 → W1.seg = W.seg → n ≤ σ1.store.length → St C K W1 (r v :: ts) σ1 m1 →
      Sim N R (exec w f ups b) m1 (k v σ1) Q J) :
    Sim N R (exec w f ups (.seq a b)) m ((e >>= k) σ) Q J := by
  refine h.seq ?_
  rintro v σ1 m1 ⟨W1, h1, h2, h3, h4⟩
  exact hk v W1 σ1 m1 h1 h2 h3 h4

/-- An instruction that gives a value without a change of the evaluator. -/
theorem Sim.seqI {α β : Type} {f : Frame} {ups : Option (List Nat)} {i : Instr} {b : Code} {e : S β} {r : β → Value} {k : β → S α}
    {Q : α → State → Sig → VM → Prop} {J : Jump → State → VM → Prop}
    (h : SimV (istep w 0 f ups i) m (e σ) (Norm fun a σ' m' => σ' = σ ∧ St C K W (r a :: ts) σ m'))
    (hk : ∀ v m1, St C K W (r v :: ts) σ m1 → Sim N R (exec w f ups b) m1 (k v σ) Q J) :
    Sim N R (exec w f ups (.seq (.instr i) b)) m ((e >>= k) σ) Q J := by
  refine Sim.seq (P := fun a σ' m' => σ' = σ ∧ St C K W (r a :: ts) σ m') (.instr h) ?_
  rintro v _ m1 ⟨rfl, h1⟩
  exact hk v m1 h1

theorem Sim.doneBack {α : Type} {o : Out α × State} {r : α → Value} {J : Jump → State → VM → Prop} {W2 : Wd} {n2 : Nat}
    (hle : W1.Le n1 W2) (hs : W2.seg = W1.seg) (hn : n1 ≤ n2) (h : Sim N R x m o (Norm fun a => Done C K W2 ts n2 (r a)) J) :
    Sim N R x m o (Norm fun a => Done C K W1 ts n1 (r a)) J :=
  h.post fun _ _ _ _ h => ⟨h.1, h.2.back hle hs hn⟩

end

/-- The code of an expression follows the evaluator, which is told what `return` means. -/
def FollowsE (w : World) (N : Nat) (g : Env) (e : Src.Role → SEnv → S (Value × SEnv)) (c : Code) (g' : Env) :
    Prop :=
  ∀ {C : Cx} {K : Nat → Prop} {W : Wd} {ts : List Value} {R : Prop} {σ : State} {m : VM}, Here C K g g' c W ts R σ m →
    Sim N R (exec w C.f C.ups c) m (e C.role (W.seg ++ C.out) σ)
      (Norm (Post C K W g' ts σ.store.length)) (Jmp C K W ts σ.store.length)

end Dice.Sim
