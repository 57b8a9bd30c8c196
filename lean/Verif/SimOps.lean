import Verif.SimInstr

/-!
# Operators, calls and new functions
-/

namespace Dice.Sim

open Src (SEnv State Out S Jump)

section
variable {α β : Type} {N : Nat} {R : Prop} {m : VM} {Q : α → State → Sig → VM → Prop} {J : Jump → State → VM → Prop}

theorem ends_panic {y : V β} {k : β → X} {s : String} {m' : VM} (h : y m = (.panic s, m')) :
    Ends (fun n => y >>= fun b => k b n) m (.panic s) m' :=
  ⟨0, by
    show ((y >>= fun b => k b 0) m).1.res = _ ∧ ((y >>= fun b => k b 0) m).2 = _
    rw [bind_panic h]; exact ⟨rfl, rfl⟩⟩

theorem ends_err {y : V β} {k : β → X} {e : RtErr} {m' : VM} (h : y m = (.err e, m')) :
    Ends (fun n => y >>= fun b => k b n) m (.err e) m' :=
  ⟨0, by
    show ((y >>= fun b => k b 0) m).1.res = _ ∧ ((y >>= fun b => k b 0) m).2 = _
    rw [bind_err h]; exact ⟨rfl, rfl⟩⟩

theorem ends_ok {y : V β} {s : Sig} {b : β} {m' : VM} (h : y m = (.ok b, m')) :
    Ends (fun n => y >>= fun _ => Pure.pure (s, n)) m (.done s) m' :=
  ⟨0, by
    show ((y >>= fun _ => Pure.pure (s, 0)) m).1.res = _ ∧ ((y >>= fun _ => Pure.pure (s, 0)) m).2 = _
    rw [bind_ok h]; exact ⟨rfl, rfl⟩⟩

theorem guard_pos {b : Bool} {x : S α} (h : b = true) : S.guard b x = x := by
  unfold S.guard; rw [if_pos h]

theorem guard_neg {b : Bool} {x : S α} (h : ¬ b = true) : S.guard b x = S.stuck := by
  unfold S.guard; rw [if_neg h]

/-- A computation that is the same as another one from another state. -/
theorem Sim.change {x y : X} {m1 : VM} {o : Out α × State} (h : ∀ n, x n m = y n m1) (hs : Sim N R y m1 o Q J) :
    Sim N R x m o Q J := by
  have he : ∀ {r m'}, Ends y m1 r m' → Ends x m r m' := by
    rintro r m' ⟨n, h1, h2⟩
    exact ⟨n, by rw [h]; exact h1, by rw [h]; exact h2⟩
  rcases hs with ⟨s, m', h1, h2⟩ | hs
  · exact .inl ⟨s, m', he h1, h2⟩
  · refine .inr ?_
    obtain ⟨o, σ⟩ := o
    cases o with
    | ok a => obtain ⟨s, m', h1, h2⟩ := hs; exact ⟨s, m', he h1, h2⟩
    | jump j => intro hj; obtain ⟨m', h1, h2⟩ := hs hj; exact ⟨m', he h1, h2⟩
    | err e => obtain ⟨m', h1⟩ := hs; exact ⟨m', he h1⟩
    | abort => obtain ⟨s, m', h1⟩ := hs; exact ⟨s, m', he h1⟩
    | stuck => trivial
    | timeout => intro n hn; rw [h]; exact hs n hn

theorem Sim.tick {x : X} {o : Out α × State} (hs : Sim N R x m o Q J) : Sim N R (Dice.tick x) m o Q J := by
  have he : ∀ {r m'}, Ends x m r m' → Ends (Dice.tick x) m r m' := by
    rintro r m' ⟨n, h1, h2⟩
    exact ⟨n + 1, h1, h2⟩
  rcases hs with ⟨s, m', h1, h2⟩ | hs
  · exact .inl ⟨s, m', he h1, h2⟩
  · refine .inr ?_
    obtain ⟨o, σ⟩ := o
    cases o with
    | ok a => obtain ⟨s, m', h1, h2⟩ := hs; exact ⟨s, m', he h1, h2⟩
    | jump j => intro hj; obtain ⟨m', h1, h2⟩ := hs hj; exact ⟨m', he h1, h2⟩
    | err e => obtain ⟨m', h1⟩ := hs; exact ⟨m', he h1⟩
    | abort => obtain ⟨s, m', h1⟩ := hs; exact ⟨s, m', he h1⟩
    | stuck => trivial
    | timeout => exact Stalls.tick hs

/-- First the machine alone. -/
theorem Sim.pre {y : V β} {k : β → X} {o : Out α × State} {P : β → VM → Prop} (h : Does y m P)
    (hk : ∀ b m1, P b m1 → Sim N R (k b) m1 o Q J) : Sim N R (fun n => y >>= fun b => k b n) m o Q J := by
  rcases h with ⟨s, m', h1, h2⟩ | ⟨b, m1, h1, h2⟩
  · exact .inl ⟨s, m', ends_panic h1, h2⟩
  · exact .change (fun n => bind_ok h1) (hk b m1 h2)

/-- First a part that does not depend on the budget. -/
theorem Sim.preV {γ : Type} {y : V β} {k : β → X} {x : S γ} {j : γ → S α} {σ : State} {P : γ → State → β → VM → Prop}
    (h : SimV y m (x σ) P) (hk : ∀ a σ1 b m1, P a σ1 b m1 → Sim N R (k b) m1 (j a σ1) Q J) :
    Sim N R (fun n => y >>= fun b => k b n) m ((x >>= j) σ) Q J := by
  show Sim N R _ m (S.bind x j σ) Q J
  rcases h with ⟨s, m', h1, h2⟩ | h
  · exact .inl ⟨s, m', ends_panic h1, h2⟩
  · unfold S.bind
    cases hx : x σ with
    | mk o σ1 =>
      rw [hx] at h
      cases o with
      | ok a => obtain ⟨b, m1, h1, h2⟩ := h; exact .change (fun n => bind_ok h1) (hk a σ1 b m1 h2)
      | err e => obtain ⟨m1, h1⟩ := h; exact .inr ⟨m1, ends_err h1⟩
      | abort => obtain ⟨s, m1, h1⟩ := h; exact .inr ⟨s, m1, ends_panic h1⟩
      | stuck => exact .inr trivial
      | jump => exact h.elim
      | timeout => exact h.elim

/-- A part that does not depend on the budget. -/
theorem Sim.ofV {y : V β} {o : Out α × State} {P : α → State → β → VM → Prop} (h : SimV y m o P)
    (hk : ∀ a σ1 b m1, P a σ1 b m1 → Q a σ1 .normal m1) :
    Sim N R (fun n => y >>= fun _ => Pure.pure (.normal, n)) m o Q J := by
  rcases h with ⟨s, m', h1, h2⟩ | h
  · exact .inl ⟨s, m', ends_panic h1, h2⟩
  · refine .inr ?_
    obtain ⟨o, σ⟩ := o
    cases o with
    | ok a =>
      obtain ⟨b, m1, h1, h2⟩ := h
      exact ⟨.normal, m1, ends_ok h1, hk _ _ _ _ h2⟩
    | err e => obtain ⟨m1, h1⟩ := h; exact ⟨m1, ends_err h1⟩
    | abort => obtain ⟨s, m1, h1⟩ := h; exact ⟨s, m1, ends_panic h1⟩
    | stuck => trivial
    | jump => exact h.elim
    | timeout => exact h.elim

theorem Sim.free {x : X} {o : Out α × State} (h : Sim N True x m o Q NoJump) : Sim N R x m o Q J :=
  h.mono (fun _ _ _ _ h => h) (fun _ => trivial) (fun _ _ _ h => h.elim)

end

section
variable {C : Cx} {K : Nat → Prop} {W : Wd} {ts : List Value} {σ : State} {m : VM} {w : World} {N : Nat} {R : Prop}
  {J : Jump → State → VM → Prop} {call : Src.Calls}

/-- A value was computed; there are no new variables. -/
def Done (C : Cx) (K : Nat → Prop) (W : Wd) (ts : List Value) (n : Nat) (v : Value) (σ' : State) (m' : VM) : Prop :=
  ∃ W', W.Le n W' ∧ W'.seg = W.seg ∧ n ≤ σ'.store.length ∧ St C K W' (v :: ts) σ' m'

theorem Done.same {v : Value} {σ' : State} {m' : VM} {n : Nat} (hn : n ≤ σ'.store.length) (h : St C K W (v :: ts) σ' m') :
    Done C K W ts n v σ' m' :=
  ⟨W, .refl _ _, rfl, hn, h⟩

/-- A value was computed by other functions: they do not capture variables that were there before. -/
def Called (C : Cx) (K : Nat → Prop) (W : Wd) (ts : List Value) (n : Nat) (v : Value) (σ' : State) (m' : VM) : Prop :=
  ∃ W', W.Le n W' ∧ W'.seg = W.seg ∧ n ≤ σ'.store.length ∧ St C K W' (v :: ts) σ' m' ∧
    ∀ l, l < n → W.mu l = none → W'.mu l = none

theorem Called.same {v : Value} {σ' : State} {m' : VM} {n : Nat} (hn : n ≤ σ'.store.length) (h : St C K W (v :: ts) σ' m') :
    Called C K W ts n v σ' m' :=
  ⟨W, .refl _ _, rfl, hn, h, fun _ _ h => h⟩

theorem Called.done {v : Value} {σ' : State} {m' : VM} {n : Nat} (h : Called C K W ts n v σ' m') : Done C K W ts n v σ' m' := by
  obtain ⟨W', h1, h2, h3, h4, -⟩ := h
  exact ⟨W', h1, h2, h3, h4⟩

/-- A call on the machine. -/
def callX (w : World) (argc : Nat) : X := fun n => callFn w n argc >>= fun _ => pure (.normal, n)

/-- Calls of the machine follow those of the evaluator. -/
def CallSpec (w : World) (N : Nat) (call : Src.Calls) : Prop :=
  ∀ {C : Cx} {K : Nat → Prop} {W : Wd} {ts : List Value} {σ : State} {m : VM} {f : Value} {vs : List Value},
    vs.length ≤ 255 → St C K W (vs.reverse ++ f :: ts) σ m →
      Sim N True (callX w vs.length) m (call f vs σ) (Norm (Called C K W ts σ.store.length)) NoJump

/-- The instructions for the binary operators. -/
def IsBinary (o : Opcode) : Prop :=
  ∀ (w : World) (k : Calls) (bc : Bytecode) (f : Frame) (ups : Option (List Nat)) (p : Nat),
    Dice.step w k bc f ups o p = (binaryOp w k.callFn o >>= fun _ => pure (.goto p))

theorem St.operatorCalled (hc : CallSpec w N call) {o : Opcode} (ho : IsBinary o) {l r : Value}
    (h : St C K W (r :: l :: ts) σ m) :
    Sim N R (exec w C.f C.ups (.op o)) m (Src.binary w call o l r σ) (Norm (Called C K W ts σ.store.length)) J := by
  refine .tick (.change (m1 := m) (y := fun n => Dice.pop >>= fun rhs => Dice.peek 0 >>= fun lhs =>
    (match Dice.binDecide w o lhs rhs with
      | .value v => Dice.poke 0 v
      | .int x => do
        let r ← i64Result w x
        Dice.poke 0 (.int r)
      | .quotient l r => do
        let q ← i64Div l r
        Dice.poke 0 (.int q)
      | .remainder l r => do
        let q ← i64Rem l r
        Dice.poke 0 (.int q)
      | .divideByZero => V.err .divideByZero
      | .call name => callBinaryOp w (callFn w n) name rhs) >>= fun _ => pure (.normal, n)) ?_ ?_)
  · intro n
    unfold istep
    rw [show (Instr.op o).opcode = o from rfl, ho]
    simp only [binaryOp, bind_assoc, pure_bind]
    rfl
  · refine .pre h.pop ?_
    rintro u m1 ⟨hu, h1⟩
    refine .pre (h1.peek (i := 0) rfl) ?_
    rintro u' m1 ⟨hu', rfl⟩
    rw [← VRel.binDecide hu' hu]
    unfold Src.binary
    cases hd : Dice.binDecide w o l r with
    | value v =>
      refine Sim.ofV (P := fun a σ' _ m' => σ' = σ ∧ St C K W (a :: ts) σ m') (.ok ((h1.poke (.plain (binDecide_plain hd))).mono fun _ _ h => ⟨rfl, h⟩)) ?_
      rintro _ _ _ _ ⟨rfl, h⟩
      exact ⟨rfl, .same (Nat.le_refl _) h⟩
    | int x =>
      refine Sim.ofV (P := fun a σ' _ m' => σ' = σ ∧ St C K W (a :: ts) σ m') ((St.intResult x).andThen ?_) ?_
      · rintro _ _ _ _ ⟨rfl, rfl, rfl⟩
        exact (h1.poke (.plain (v := .int _) trivial)).mono fun _ _ h => ⟨rfl, h⟩
      · rintro _ _ _ _ ⟨rfl, h⟩
        exact ⟨rfl, .same (Nat.le_refl _) h⟩
    | quotient a b =>
      simp only
      unfold i64Div
      by_cases hi : InI64 (a.tdiv b)
      · rw [if_pos hi, if_pos hi]
        refine Sim.ofV (P := fun a σ' _ m' => σ' = σ ∧ St C K W (a :: ts) σ m')
          (.known rfl (.ok ((h1.poke (.plain (v := .int (a.tdiv b)) trivial)).mono fun _ _ h => ⟨rfl, h⟩))) ?_
        rintro _ _ _ _ ⟨rfl, h⟩
        exact ⟨rfl, .same (Nat.le_refl _) h⟩
      · rw [if_neg hi, if_neg hi]
        exact .inr ⟨_, _, 0, rfl, rfl⟩
    | remainder a b =>
      simp only
      unfold i64Rem
      by_cases hi : InI64 (a.tdiv b)
      · rw [if_pos hi, if_pos hi]
        refine Sim.ofV (P := fun a σ' _ m' => σ' = σ ∧ St C K W (a :: ts) σ m')
          (.known rfl (.ok ((h1.poke (.plain (v := .int (a.tmod b)) trivial)).mono fun _ _ h => ⟨rfl, h⟩))) ?_
        rintro _ _ _ _ ⟨rfl, h⟩
        exact ⟨rfl, .same (Nat.le_refl _) h⟩
      · rw [if_neg hi, if_neg hi]
        exact .inr ⟨_, _, 0, rfl, rfl⟩
    | divideByZero => exact .inr ⟨_, 0, rfl, rfl⟩
    | call name =>
      simp only
      unfold callBinaryOp Src.overloaded
      simp only [bind_assoc]
      refine .pre h1.pop ?_
      rintro u' m2 ⟨hu', h2⟩
      refine .preV (h2.getField hu' name) ?_
      rintro f σ f' m2 ⟨rfl, rfl, hf⟩
      rw [hf.isNull]
      have two : ∀ {γ : Type} {b : Bool} {x y : γ} {P : γ → Prop}, (b = true → P x) → (b ≠ true → P y) → P (if b = true then x else y) := by
        intro γ b x y P h1 h2
        split
        · exact h1 ‹_›
        · exact h2 ‹_›
      refine two (P := fun z : S Value => Sim N R _ m2 (z σ) _ J) ?_ ?_ <;> intro hn
      · simp only [if_pos hn, bind_assoc]
        have hg := h2.inv.globals.get name
        cases hs : σ.globals.get name with
        | none =>
          rw [hs] at hg
          cases hm : m2.globals.get name with
          | some _ => rw [hm] at hg; cases hg
          | none =>
            exact .inr ⟨m2, ends_err (show operatorFn name m2 = (.err (.operatorUndefined name), m2) by unfold operatorFn; rw [hm])⟩
        | some g =>
          rw [hs] at hg
          cases hm : m2.globals.get name with
          | none => rw [hm] at hg; cases hg
          | some g' =>
            rw [hm] at hg
            cases hg with
            | some hg =>
              refine .pre (Does.of (show operatorFn name m2 = (.ok g', m2) by unfold operatorFn; rw [hm])
                (P := fun b m' => b = g' ∧ m' = m2) ⟨rfl, rfl⟩) ?_
              rintro _ _ ⟨rfl, rfl⟩
              refine .pre (h2.push hg) fun _ m3 h3 => .pre (h3.push hu') fun _ m4 h4 => .pre (h4.push hu) fun _ m5 h5 => ?_
              exact (hc (vs := [l, r]) (by simp) h5).free
      · simp only [if_neg hn, bind_assoc]
        refine .pre (h2.push hf) fun _ m3 h3 => .pre (h3.push hu) fun _ m4 h4 => ?_
        exact (hc (vs := [r]) (by simp) h4).free

theorem St.operatorOp (hc : CallSpec w N call) {o : Opcode} (ho : IsBinary o) {l r : Value}
    (h : St C K W (r :: l :: ts) σ m) :
    Sim N R (exec w C.f C.ups (.op o)) m (Src.binary w call o l r σ) (Norm (Done C K W ts σ.store.length)) J :=
  (h.operatorCalled hc ho).post fun _ _ _ _ h => ⟨h.1, h.2.done⟩

theorem St.callOp (hc : CallSpec w N call) {f : Value} {vs : List Value} (hl : vs.length ≤ 255)
    (h : St C K W (vs.reverse ++ f :: ts) σ m) :
    Sim N R (exec w C.f C.ups (.num .call vs.length)) m (call f vs σ) (Norm (Done C K W ts σ.store.length)) J := by
  refine .tick (.change (m1 := m) (y := callX w vs.length) ?_
    ((hc hl h).free.post fun _ _ _ _ h => ⟨h.1, h.2.done⟩))
  intro n
  unfold istep callX
  rw [show step w (callsAt w n) (Instr.num .call vs.length).operands C.f C.ups (Instr.num .call vs.length).opcode 0 =
    (operand (Instr.num .call vs.length).operands 0 >>= fun i => callFn w n i >>= fun _ => pure (Next.goto (0 + 1))) from rfl]
  simp only [bind_assoc, pure_bind]
  exact bind_ok (operand_num _ (by omega) m)

/-! ## Construction -/

theorem Sim.less {α : Type} {N' : Nat} {x : X} {o : Out α × State} {Q : α → State → Sig → VM → Prop} (hn : N ≤ N')
    (h : Sim N' R x m o Q J) : Sim N R x m o Q J := by
  rcases h with h | h
  · exact .inl h
  · refine .inr ?_
    obtain ⟨o, σ⟩ := o
    cases o with
    | timeout => exact fun n hl => h n (by omega)
    | _ => exact h

/-- A computation that is another one with one more step. -/
theorem Sim.shift {α : Type} {x y : X} {o : Out α × State} {Q : α → State → Sig → VM → Prop} (h0 : (y 0 m).1 = .timeout)
    (h : ∀ n, (y (n + 1) m).1.res = (x n m).1.res ∧ (y (n + 1) m).2 = (x n m).2) (hs : Sim N R x m o Q J) :
    Sim (N + 1) R y m o Q J := by
  have he : ∀ {r m'}, Ends x m r m' → Ends y m r m' := by
    rintro r m' ⟨n, h1, h2⟩
    exact ⟨n + 1, by rw [(h n).1]; exact h1, by rw [(h n).2]; exact h2⟩
  rcases hs with ⟨s, m', h1, h2⟩ | hs
  · exact .inl ⟨s, m', he h1, h2⟩
  · refine .inr ?_
    obtain ⟨o, σ⟩ := o
    cases o with
    | ok a => obtain ⟨s, m', h1, h2⟩ := hs; exact ⟨s, m', he h1, h2⟩
    | jump j => intro hj; obtain ⟨m', h1, h2⟩ := hs hj; exact ⟨m', he h1, h2⟩
    | err e => obtain ⟨m', h1⟩ := hs; exact ⟨m', he h1⟩
    | abort => obtain ⟨s, m', h1⟩ := hs; exact ⟨s, m', he h1⟩
    | stuck => trivial
    | timeout =>
      intro n hn
      cases n with
      | zero => exact h0
      | succ n =>
        have h1 := hs n (by omega)
        have h2 := (h n).1
        rw [h1] at h2
        cases ho : (y (n + 1) m).1 with
        | timeout => rfl
        | ok a => rw [ho] at h2; cases h2
        | err a => rw [ho] at h2; cases h2
        | panic a => rw [ho] at h2; cases h2

/-- Then the machine alone. -/
theorem Sim.thenV {α γ : Type} {y : Nat → V Unit} {z : V γ} {o : Out α × State} {P P' : α → State → VM → Prop}
    (h : Sim N R (fun n => y n >>= fun _ => pure (Sig.normal, n)) m o (Norm P) J)
    (hz : ∀ a σ m1, P a σ m1 → Does z m1 fun _ m2 => P' a σ m2) (hj : ∀ j, Jumps R j → ∀ σ m, ¬ J j σ m) :
    Sim N R (fun n => y n >>= fun _ => z >>= fun _ => pure (Sig.normal, n)) m o (Norm P') J := by
  have he : ∀ {r m'}, Ends (fun n => y n >>= fun _ => pure (Sig.normal, n)) m r m' → (∀ s, r ≠ .done s) →
      Ends (fun n => y n >>= fun _ => z >>= fun _ => pure (Sig.normal, n)) m r m' := by
    rintro r m' ⟨n, h1, h2⟩ hr
    refine ⟨n, ?_⟩
    show ((y n >>= fun _ => z >>= fun _ => pure (Sig.normal, n)) m).1.res = _ ∧ ((y n >>= fun _ => z >>= fun _ => pure (Sig.normal, n)) m).2 = _
    change ((y n >>= fun _ => pure (Sig.normal, n)) m).1.res = _ at h1
    change ((y n >>= fun _ => pure (Sig.normal, n)) m).2 = _ at h2
    cases hx : y n m with
    | mk o m1 =>
      cases o with
      | ok b => rw [bind_ok hx] at h1; cases h1; exact absurd rfl (hr _)
      | err e => rw [bind_err hx] at h1 h2 ⊢; exact ⟨h1, h2⟩
      | panic e => rw [bind_panic hx] at h1 h2 ⊢; exact ⟨h1, h2⟩
      | timeout => rw [bind_timeout hx] at h1; cases h1
  rcases h with ⟨s, m', h1, h2⟩ | h
  · exact .inl ⟨s, m', he h1 (by simp), h2⟩
  · obtain ⟨o, σ⟩ := o
    cases o with
    | ok a =>
      obtain ⟨s, m', ⟨n, h1, h2⟩, rfl, h3⟩ := h
      change ((y n >>= fun _ => pure (Sig.normal, n)) m).1.res = _ at h1
      change ((y n >>= fun _ => pure (Sig.normal, n)) m).2 = _ at h2
      have hy : y n m = (.ok (), m') := by
        cases hx : y n m with
        | mk o m1 =>
          cases o with
          | ok b => rw [bind_ok hx] at h2; cases h2; rfl
          | err e => rw [bind_err hx] at h1; cases h1
          | panic e => rw [bind_panic hx] at h1; cases h1
          | timeout => rw [bind_timeout hx] at h1; cases h1
      have go : ∀ r : Outcome (Sig × Nat) × VM, (z >>= fun _ => pure (Sig.normal, n)) m' = r →
          (y n >>= fun _ => z >>= fun _ => pure (Sig.normal, n)) m = r := fun r hr => (bind_ok hy).trans hr
      rcases hz a σ m' h3 with ⟨s, m2, h4, h5⟩ | ⟨b, m2, h4, h5⟩
      · exact .inl ⟨s, m2, ⟨n, by show ((y n >>= fun _ => z >>= fun _ => pure (Sig.normal, n)) m).1.res = _ ∧ ((y n >>= fun _ => z >>= fun _ => pure (Sig.normal, n)) m).2 = _; rw [go _ (bind_panic h4)]; exact ⟨rfl, rfl⟩⟩, h5⟩
      · exact .inr ⟨.normal, m2, ⟨n, by show ((y n >>= fun _ => z >>= fun _ => pure (Sig.normal, n)) m).1.res = _ ∧ ((y n >>= fun _ => z >>= fun _ => pure (Sig.normal, n)) m).2 = _; rw [go _ (bind_ok h4)]; exact ⟨rfl, rfl⟩⟩, rfl, h5⟩
    | jump j => exact .inr fun hr => by obtain ⟨m', -, h2⟩ := h hr; exact (hj j hr _ _ h2).elim
    | err e => obtain ⟨m', h1⟩ := h; exact .inr ⟨m', he h1 (by simp)⟩
    | abort => obtain ⟨s, m', h1⟩ := h; exact .inr ⟨s, m', he h1 (by simp)⟩
    | stuck => exact .inr trivial
    | timeout =>
      refine .inr fun n hn => ?_
      have := h n hn
      change ((y n >>= fun _ => pure (Sig.normal, n)) m).1 = _ at this
      show ((y n >>= fun _ => z >>= fun _ => pure (Sig.normal, n)) m).1 = _
      cases hx : y n m with
      | mk o m1 =>
        cases o with
        | ok b => rw [bind_ok hx] at this; cases this
        | err e => rw [bind_err hx] at this; cases this
        | panic e => rw [bind_panic hx] at this; cases this
        | timeout => rw [bind_timeout hx]

/-- Replacing an operand below the top. -/
theorem Temps.put {κ : List Value} {mem : Nat → Value} {base ptr : Nat} {us : List Value} {v v' u : Value}
    (h : Temps κ mem base (us ++ v :: ts) ptr) (hv : VRel κ v' u) :
    Temps κ (upd mem (ptr - us.length - 1) u) base (us ++ v' :: ts) ptr := by
  induction us generalizing ptr with
  | nil =>
    obtain ⟨h1, h2, h3⟩ := h.uncons
    have e : ptr = ptr - 1 + 1 := by omega
    rw [e]
    refine .cons ?_ (h3.congr fun p _ hlt => upd_other ?_)
    · rw [show ptr - 1 + 1 - ([] : List Value).length - 1 = ptr - 1 by simp, upd_same]; exact hv
    · show p ≠ ptr - 1 + 1 - 0 - 1
      omega
  | cons a us ih =>
    obtain ⟨h1, h2, h3⟩ := h.uncons
    have hp := h3.ptr_eq
    have hl : (us ++ v :: ts).length = us.length + (ts.length + 1) := by simp
    have := ih h3
    change ptr - 1 = base + (us ++ v :: ts).length at hp
    rw [hl] at hp
    have e : ptr = ptr - 1 + 1 := by omega
    rw [e]
    rw [show ptr - 1 + 1 - (a :: us).length - 1 = ptr - 1 - us.length - 1 by simp]
    refine .cons ?_ this
    rw [upd_other (by omega)]
    exact h2

theorem St.pokeAt {us : List Value} {v v' u : Value} (h : St C K W (us ++ v :: ts) σ m) (hv : VRel W.kap v' u) :
    Does (Dice.poke us.length u) m fun _ m' => St C K W (us ++ v' :: ts) σ m' := by
  have hp := h.ptr_eq
  have hr := h.rest.room (by simp)
  have hf := h.fits
  simp only [List.length_append, List.length_cons] at hp
  refine .of (m1 := { m with mem := upd m.mem (m.ptr - us.length - 1) u }) (b := ()) ?_ ?_
  · unfold Dice.poke
    rw [if_pos (by omega)]
  · exact h.stack (fun p hlt => upd_other (by omega)) (h.rest.temps.put hv) fun _ => hr

/-- A construction on the machine. -/
def ctorX (w : World) (argc c : Nat) (obj : Value) : X := fun n => callCtor w n argc c obj >>= fun v => push v >>= fun _ => pure (Sig.normal, n)

theorem St.construct (hc : CallSpec w N call) {c : Nat} {obj u f : Value} {vs : List Value} (hl : vs.length ≤ 255)
    (h : St C K W (vs.reverse ++ f :: ts) σ m) (ho : VRel W.kap obj u) :
    Sim (N + 1) True (ctorX w vs.length c u) m (Src.construct call c obj vs σ) (Norm (Called C K W ts σ.store.length)) NoJump := by
  have hm := h.inv.heap.method c "new"
  have h0 : (ctorX w vs.length c u 0 m).1 = .timeout := by
    unfold ctorX
    rw [callCtor, bind_timeout (x := V.timeout) rfl]
  have hlen : vs.reverse.length = vs.length := List.length_reverse
  unfold Src.construct
  cases hs : σ.heap.method c "new" with
  | some new =>
    rw [hs] at hm
    cases hx : m.heap.method c "new" with
    | none => rw [hx] at hm; cases hm
    | some new' =>
      rw [hx] at hm
      cases hm with
      | some hm =>
      have key : Sim N True (fun n => Dice.poke vs.length (.fnBound u new') >>= fun _ => callFn w n vs.length >>= fun _ =>
          (Dice.peek 0 >>= fun r => Dice.pop >>= fun _ => Dice.push r) >>= fun _ => pure (Sig.normal, n)) m (call (.fnBound obj new) vs σ)
          (Norm (Called C K W ts σ.store.length)) NoJump := by
        refine .pre (P := fun _ m1 => St C K W (vs.reverse ++ .fnBound obj new :: ts) σ m1) ?_ ?_
        · have := St.pokeAt (us := vs.reverse) (u := .fnBound u new') h (.bound ho hm)
          rwa [hlen] at this
        · intro _ m1 h1
          refine Sim.thenV (y := fun n => callFn w n vs.length) (hc hl h1) ?_ (fun j hj σ m h => h)
          rintro v σ2 m2 ⟨W', k1, k2, k3, k4, k5⟩
          refine (k4.peek (i := 0) rfl).bind ?_
          rintro r _ ⟨hr, rfl⟩
          refine k4.pop.bind ?_
          rintro _ m3 ⟨-, h3⟩
          exact (h3.push hr).mono fun _ _ h => ⟨W', k1, k2, k3, h, k5⟩
      refine Sim.shift h0 (fun n => ?_) key
      have : ∀ k : Nat, ctorX w vs.length c u (n + 1) m = ((Dice.poke vs.length (.fnBound u new') >>= fun _ => callFn w n vs.length >>= fun _ =>
          (Dice.peek 0 >>= fun r => Dice.pop >>= fun _ => Dice.push r) >>= fun _ => pure (Sig.normal, k)) >>= fun _ => pure (Sig.normal, n + 1)) m := by
        intro k
        unfold ctorX
        rw [callCtor]
        simp only [bind_assoc, pure_bind]
        refine (bind_ok (x := V.get) rfl).trans ?_
        simp only [hx, bind_assoc]
      rw [this n]
      generalize hz : (Dice.poke vs.length (.fnBound u new') >>= fun _ => callFn w n vs.length >>= fun _ =>
          (Dice.peek 0 >>= fun r => Dice.pop >>= fun _ => Dice.push r) >>= fun _ => pure (Sig.normal, n)) = z
      have hn : ∀ a m', z m = (.ok a, m') → a.1 = .normal := by
        intro a m' h
        rw [← hz] at h
        obtain ⟨_, m1, -, h⟩ := bind_ok_inv h
        obtain ⟨_, m1, -, h⟩ := bind_ok_inv h
        obtain ⟨_, m1, -, h⟩ := bind_ok_inv h
        cases h; rfl
      cases hy : z m with
      | mk o m1 =>
        cases o with
        | ok a =>
          rw [bind_ok hy]
          have := hn a m1 hy
          obtain ⟨s, k⟩ := a
          cases this
          exact ⟨rfl, rfl⟩
        | err e => rw [bind_err hy]; exact ⟨rfl, rfl⟩
        | panic e => rw [bind_panic hy]; exact ⟨rfl, rfl⟩
        | timeout => rw [bind_timeout hy]; exact ⟨rfl, rfl⟩
  | none =>
    rw [hs] at hm
    have hx : m.heap.method c "new" = none := by
      cases hx : m.heap.method c "new" with
      | none => rfl
      | some _ => rw [hx] at hm; cases hm
    have plain : Does (Dice.popCount vs.length >>= fun _ => Dice.pop >>= fun _ => Dice.push u) m
        fun _ m' => St C K W (obj :: ts) σ m' := by
      have h1 := h.popCount
      rw [hlen] at h1
      refine h1.bind ?_
      rintro _ m1 ⟨-, h1⟩
      refine h1.pop.bind ?_
      rintro _ m2 ⟨-, h2⟩
      exact h2.push ho
    have key : Sim N True (fun n => (Dice.popCount vs.length >>= fun _ => Dice.pop >>= fun _ => Dice.push u) >>= fun _ => pure (Sig.normal, n)) m
        (.ok obj, σ) (Norm (Called C K W ts σ.store.length)) NoJump :=
      .ofV (P := fun a σ' _ m' => a = obj ∧ σ' = σ ∧ St C K W (obj :: ts) σ m') (.ok (plain.mono fun _ _ h => ⟨rfl, rfl, h⟩))
        (by rintro _ _ _ _ ⟨rfl, rfl, h⟩; exact ⟨rfl, .same (Nat.le_refl _) h⟩)
    have res : ∀ (z : V Unit) (n : Nat), (((z >>= fun _ => pure (Sig.normal, n + 1)) m).1.res = ((z >>= fun _ => pure (Sig.normal, n)) m).1.res) ∧
        ((z >>= fun _ => pure (Sig.normal, n + 1)) m).2 = ((z >>= fun _ => pure (Sig.normal, n)) m).2 := by
      intro z n
      cases hy : z m with
      | mk o m1 =>
        cases o with
        | ok a => rw [bind_ok hy, bind_ok hy]; exact ⟨rfl, rfl⟩
        | err e => rw [bind_err hy, bind_err hy]; exact ⟨rfl, rfl⟩
        | panic e => rw [bind_panic hy, bind_panic hy]; exact ⟨rfl, rfl⟩
        | timeout => rw [bind_timeout hy, bind_timeout hy]; exact ⟨rfl, rfl⟩
    cases vs with
    | cons a as =>
      simp only [if_neg (List.cons_ne_nil a as)]
      refine Sim.shift h0 (fun n => ?_) key
      have : ctorX w (a :: as).length c u (n + 1) m = ((Dice.popCount (a :: as).length >>= fun _ => Dice.pop >>= fun _ => Dice.push u) >>= fun _ => pure (Sig.normal, n + 1)) m := by
        unfold ctorX
        rw [callCtor]
        simp only [bind_assoc, pure_bind]
        refine (bind_ok (x := V.get) rfl).trans ?_
        simp only [hx, bind_assoc, if_pos (show (a :: as).length > 0 by simp), pure_bind]
      rw [this]
      exact res _ n
    | nil =>
      simp only [if_true]
      have hbase : ORel W.kap ((σ.heap.classes[c]?.bind (·.base)).bind (σ.heap.method · "new"))
          ((m.heap.classes[c]?.bind (·.base)).bind (m.heap.method · "new")) := by
        have : σ.heap.classes[c]?.bind (·.base) = m.heap.classes[c]?.bind (·.base) := by
          rcases h.inv.heap.classes.get c with ⟨h1, h2⟩ | ⟨x, y, h1, h2, hr⟩
          · rw [h1, h2]
          · rw [h1, h2]; simp only [Option.bind_some]; exact hr.base
        rw [this]
        cases m.heap.classes[c]?.bind (·.base) with
        | none => exact .none
        | some b => exact h.inv.heap.method b "new"
      have go : ∀ n, ctorX w 0 c u (n + 1) m =
          (((match (m.heap.classes[c]?.bind (·.base)).bind (m.heap.method · "new") with
            | some _ => V.err .mustHaveNew
            | none => pure u) >>= fun r => Dice.pop >>= fun _ => Dice.push r) >>= fun _ => pure (Sig.normal, n + 1)) m := by
        intro n
        unfold ctorX
        rw [callCtor]
        simp only [bind_assoc, pure_bind]
        refine (bind_ok (x := V.get) rfl).trans ?_
        simp only [hx, Nat.lt_irrefl, if_false, gt_iff_lt]
        rfl
      cases hb : (σ.heap.classes[c]?.bind (·.base)).bind (σ.heap.method · "new") with
      | some b =>
        rw [hb] at hbase
        cases hy : (m.heap.classes[c]?.bind (·.base)).bind (m.heap.method · "new") with
        | none => rw [hy] at hbase; cases hbase
        | some b' =>
          refine .inr ⟨m, 1, ?_⟩
          show (ctorX w 0 c u 1 m).1.res = _ ∧ (ctorX w 0 c u 1 m).2 = _
          rw [go 0, hy]
          exact ⟨rfl, rfl⟩
      | none =>
        rw [hb] at hbase
        have hy : (m.heap.classes[c]?.bind (·.base)).bind (m.heap.method · "new") = none := by
          cases hy : (m.heap.classes[c]?.bind (·.base)).bind (m.heap.method · "new") with
          | none => rfl
          | some _ => rw [hy] at hbase; cases hbase
        refine Sim.shift h0 (fun n => ?_) (x := fun n => (Dice.pop >>= fun _ => Dice.push u) >>= fun _ => pure (Sig.normal, n)) ?_
        · show (ctorX w 0 c u (n + 1) m).1.res = _ ∧ (ctorX w 0 c u (n + 1) m).2 = _
          rw [go n, hy]
          simp only [pure_bind]
          exact res _ n
        · refine .ofV (P := fun a σ' _ m' => a = obj ∧ σ' = σ ∧ St C K W (obj :: ts) σ m') (.ok ?_)
            (by rintro _ _ _ _ ⟨rfl, rfl, h⟩; exact ⟨rfl, .same (Nat.le_refl _) h⟩)
          refine (St.pop (v := f) (ts := ts) h).bind ?_
          rintro _ m2 ⟨-, h2⟩
          exact (h2.push ho).mono fun _ _ h => ⟨rfl, rfl, h⟩

/-- A call of the constructor of the base class. -/
theorem St.callSuperOp (hc : CallSpec w N call) {c s : Value} {vs : List Value} (hl : vs.length ≤ 255)
    (h : St C K W (c :: (vs.reverse ++ s :: ts)) σ m) :
    Sim N R (exec w C.f C.ups (.num .callSuper vs.length)) m ((Src.classRef c >>= fun k => Src.construct call k s vs) σ)
      (Norm (Done C K W ts σ.store.length)) J := by
  refine .tick (.change (m1 := m) (y := fun n => Dice.pop >>= fun u => asClass u >>= fun k => Dice.peek vs.length >>= fun r =>
    ctorX w vs.length k r n) ?_ ?_)
  · intro n
    unfold istep ctorX
    rw [show step w (callsAt w n) (Instr.num .callSuper vs.length).operands C.f C.ups (Instr.num .callSuper vs.length).opcode 0 =
      (operand (Instr.num .callSuper vs.length).operands 0 >>= fun i => Dice.pop >>= fun u => asClass u >>= fun k => Dice.peek i >>= fun r =>
        callCtor w n i k r >>= fun v => Dice.push v >>= fun _ => pure (Next.goto (0 + 1))) from rfl]
    simp only [bind_assoc, pure_bind]
    exact bind_ok (operand_num _ (by omega) m)
  · refine .pre h.pop ?_
    rintro u m1 ⟨hu, h1⟩
    refine .preV (asClass_rel hu) ?_
    rintro k σ k' m1 ⟨rfl, rfl, rfl, -⟩
    refine .pre (h1.peek (i := vs.length) (v := s) (by rw [List.getElem?_append_right (by simp)]; simp)) ?_
    rintro r _ ⟨hr, rfl⟩
    exact ((h1.construct hc hl hr).less (Nat.le_succ _)).free.post fun _ _ _ _ h => ⟨h.1, h.2.done⟩

/-! ## New functions -/

theorem Env.vars_le {g : Env} (inv : StackInv g) : g.vars.length ≤ g.slotCount := by
  cases g with
  | nil => exact Nat.le_refl _
  | cons c r =>
    have h1 := inv.2.1.slots
    have h2 := inv.2.1.bound
    have : (Env.vars (c :: r)).length = (ScopeStack.visible c.scopes.stack).length := by
      simp [Env.vars]
    have h3 := congrArg List.length h1
    simp only [List.length_map, List.length_reverse, List.length_range] at h3
    show _ ≤ c.scopes.slotCount
    omega

/-- The environment of the function being created. -/
theorem Good.outerMatches {g : Env} (hg : Good C g) {seg : SEnv} (hm : Matches g seg) (hne : g ≠ []) :
    OuterMatches g (seg :: C.segs) := by
  cases g with
  | nil => exact absurd rfl hne
  | cons c r => exact .cons hm hg.outer

theorem Good.ne {g : Env} (hg : Good C g) : g ≠ [] := by
  rintro rfl
  obtain ⟨k, h, -⟩ := hg.kind
  cases h

theorem St.newFnOp {g g' : Env} {k : FnKind} {args : List FnArg} {ret : Option TypeAnn} {body : Expr} {c : Code} {fn : Ctx} {bc : Bytecode}
    {name : String} {id : Nat} (hg : Good C g)
    (gen : Gen (g.pushFn (fnCompilerKind k ret)) (.fnBody k args (bodyExprs body) (bodyTrailing body)) c (fn :: g'))
    (hc : FnCode fn c bc) (fits : Fits bc) (hd : Dest C K g') (hm : Matches g W.seg) (h : St C K W ts σ m) :
    SimV (istep w 0 C.f C.ups (fnInstr bc name id fn.upvalues)) m (Src.newFn (formOf k) args ret body (W.seg ++ C.out) σ)
      (Norm (Done C K W ts σ.store.length)) := by
  have inv0 : StackInv (g.pushFn (fnCompilerKind k ret)) := ⟨List.Pairwise.nil, scopeInv_new _, by simp, hg.inv⟩
  have inv1 := (gen.rel slotRel inv0).1
  have flg0 : FlagInv (g.pushFn (fnCompilerKind k ret)) := ⟨by simp, hg.flags⟩
  have flg1 : FlagInv (fn :: g') := gen.rel flagRel flg0
  have hom := hg.outerMatches hm hg.ne
  have hom' := hom.mono gen.outer
  have step : ∀ {mu' : Nat → Option Nat} {v : Value} {m1 : VM} (p : Nat), Inv (C.lam W.seg) mu' W.kap σ m1 → m1.mem = m.mem → m1.ptr = m.ptr →
      (∀ l a, W.mu l = some a → mu' l = some a) →
      (∀ l, mu' l ≠ none → W.mu l ≠ none ∨ ∃ s b, .parentLocal s b ∈ fn.upvalues ∧ C.lam W.seg (C.f.start + s) = some l) →
      FnRel mu' ⟨formOf k, args, ret, body, W.seg ++ C.out⟩ v →
      Does (do Dice.push v; pure (Next.goto p)) m1 fun nx m2 => nx.sig = .normal ∧
        Done C K W ts σ.store.length (Src.closure σ.fns.length) { σ with fns := σ.fns ++ [⟨formOf k, args, ret, body, W.seg ++ C.out⟩] } m2 := by
    intro mu' v m1 p hi e1 e2 hmono hnew hfn
    have hlen : W.kap.length = σ.fns.length := hi.fns.length.symm
    have hpre : W.kap <+: W.kap ++ [v] := List.prefix_append _ _
    have old : ∀ s l, slotLoc W.seg s = some l → mu' l ≠ none → K s := by
      intro s l hs hl
      rcases hnew l hl with h1 | ⟨s', b, h1, h2⟩
      · exact h.marked s l hs h1
      · have : C.f.start + s = C.f.start + s' := hi.inj _ _ l (C.lam_slot hs) h2
        have : s = s' := by omega
        subst this
        exact hd.flags _ (flg1.1 _ _ h1)
    have hst : St C K ⟨mu', W.kap ++ [v], W.seg⟩ ts { σ with fns := σ.fns ++ [⟨formOf k, args, ret, body, W.seg ++ C.out⟩] } m1 := by
      refine { inv := hi.newFn hfn, rest := ?_, marked := old, fits := h.fits }
      refine { ups := ?_, wide := h.rest.wide, low := ?_, temps := ?_, room := ?_, capt := ?_ }
      · intro i l hl
        obtain ⟨us, a, h1, h2, h3⟩ := h.rest.ups i l hl
        exact ⟨us, a, h1, h2, hmono _ _ h3⟩
      · rw [e1]; exact h.rest.low
      · rw [e1, e2]; exact h.rest.temps.mono hpre fun _ _ _ => rfl
      · rw [e2]; exact h.rest.room
      · intro l a hl
        by_cases ho : W.mu l = none
        · rcases hnew l (by rw [show mu' l = some a from hl]; simp) with h1 | ⟨s, b, h1, h2⟩
          · exact absurd ho h1
          · refine ⟨⟨formOf k, args, ret, body, W.seg ++ C.out⟩, by simp, ?_⟩
            have hs : slotLoc W.seg s = some l := by
              unfold Cx.lam at h2
              rwa [if_neg (by omega), Nat.add_sub_cancel_left] at h2
            obtain ⟨x, hx⟩ := slotLoc_mem hs
            exact ⟨x, List.mem_append_left _ hx⟩
        · cases hx : W.mu l with
          | none => exact absurd hx ho
          | some a' =>
            obtain ⟨cl, h1, h2⟩ := h.rest.capt l a' hx
            exact ⟨cl, by simp [h1], h2⟩
    have hv : VRel (W.kap ++ [v]) (Src.closure σ.fns.length) v :=
      .fn (by rw [← hlen]; simp) hfn.kind.1 hfn.kind.2
    refine (hst.push hv).bind fun _ _ h2 => .pure ⟨rfl, ⟨mu', W.kap ++ [v], W.seg⟩, ⟨hmono, hpre, ⟨[], rfl, by simp⟩, ?_⟩, rfl,
      Nat.le_refl _, h2⟩
    intro l _ h1 h2
    rcases hnew l h2 with h3 | ⟨s, b, -, h3⟩
    · exact absurd h1 h3
    · refine ⟨s, ?_⟩
      unfold Cx.lam at h3
      rwa [if_neg (by omega), Nat.add_sub_cancel_left] at h3
  have segs : (W.seg :: C.segs).flatten = W.seg ++ C.out := rfl
  refine .istep ?_
  unfold fnInstr
  by_cases hu : fn.upvalues.isEmpty = true
  · rw [if_pos hu]
    have hu' : fn.upvalues = [] := List.isEmpty_iff.1 hu
    have hfn : FnRel W.mu ⟨formOf k, args, ret, body, W.seg ++ C.out⟩ (.fnScript bc name id) := by
      rw [← segs]
      exact .mk gen hc fits hg.inv hg.flags hom (.inl ⟨hu', rfl⟩)
    refine .ok ?_
    refine (step _ h.inv rfl rfl (fun _ _ h => h) (fun _ h => .inl h) hfn)
  · rw [if_neg hu]
    have hne : fn.upvalues ≠ [] := fun he => hu (by rw [he]; rfl)
    obtain ⟨us, m1, mu', k1, k2, k3, k4, k5, k6, k7, k8⟩ := captures_inv (f := C.f) (ups := C.ups)
      (bc := (Instr.closure bc name id fn.upvalues).operands) (loc := locOf g' (W.seg :: C.segs)) h.inv fn.upvalues 1
      (fun j _ => by
        rw [Nat.add_comm]
        rfl)
      (by
        intro s b hs
        have hlt := captured_slot_lt inv1 hs rfl
        obtain ⟨l, hl⟩ := locOf_desc inv1.2.2.2 hom' (inv1.2.2.1 _ hs)
        refine ⟨hd.slot hlt, l, hl, ?_⟩
        cases g' with
        | nil => cases hl
        | cons => exact C.lam_slot hl)
      (by
        intro j b hj
        obtain ⟨p, ps, rfl, d, h1, -⟩ := inv1.2.2.1 _ hj
        obtain ⟨l, hl⟩ := locOf_desc inv1.2.2.2 hom' (inv1.2.2.1 _ hj)
        have hlt := (List.getElem?_eq_some_iff.1 h1).1
        have hcap := hd.captures p ps rfl
        have hl' := hl
        unfold locOf at hl'
        rw [h1] at hl'
        have h2 := hd.locs p ps j d l rfl h1 hl'
        obtain ⟨us, a, h3, h4, h5⟩ := h.rest.ups j l h2
        exact ⟨by omega, l, us, a, hl, h3, h4, h5⟩)
    have hfn : FnRel mu' ⟨formOf k, args, ret, body, W.seg ++ C.out⟩ (.fnClosure bc name id us) := by
      rw [← segs]
      refine .mk gen hc fits hg.inv hg.flags hom (.inr ⟨us, ?_, rfl, k8⟩)
      rintro rfl
      exact hne (List.length_eq_zero_iff.1 k7.symm)
    have e : Dice.step w (callsAt w 0) (Instr.closure bc name id fn.upvalues).operands C.f C.ups
        (Instr.closure bc name id fn.upvalues).opcode 0 m = (do
          let us ← captures (Instr.closure bc name id fn.upvalues).operands C.f C.ups bc.upvalueCount 1
          Dice.push (.fnClosure bc name id us)
          pure (Next.goto (1 + 2 * bc.upvalueCount))) m := rfl
    rw [hc.captured] at e
    have hS : SimV (do
          let us ← captures (Instr.closure bc name id fn.upvalues).operands C.f C.ups fn.upvalues.length 1
          Dice.push (.fnClosure bc name id us)
          pure (Next.goto (1 + 2 * fn.upvalues.length))) m
        (.ok (Src.closure σ.fns.length), { σ with fns := σ.fns ++ [⟨formOf k, args, ret, body, W.seg ++ C.out⟩] })
        fun v σ' nx m' => nx.sig = .normal ∧ Done C K W ts σ.store.length v σ' m' := by
      refine .step (Does.of k1 (P := fun b m' => b = us ∧ m' = m1) ⟨rfl, rfl⟩) ?_
      rintro _ _ ⟨rfl, rfl⟩
      exact .ok (step _ k2 k3 k4 k5 k6 hfn)
    unfold SimV Over at hS ⊢
    rw [e]; exact hS

end

end Dice.Sim
