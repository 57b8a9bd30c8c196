import Verif.Eval
import Verif.Steps
import Verif.ProgramRun

/-!
# What it means for the machine to follow the evaluator

A computation of the machine follows one of the evaluator if it ends the same way: with related results, with the
same error, with a panic where the evaluator aborts, or not within a bound where the evaluator runs out of its bound.
The machine has a stack of limited size, which the evaluator does not: it may always run out of stack instead.
-/

namespace Dice.Sim

open Src (Out State Jump S SEnv)

/-- The machine panics because it runs out of stack. -/
def Over {β : Type} (y : V β) (m : VM) : Prop := ∃ s m', y m = (.panic s, m') ∧ maxStack ≤ m'.ptr

/-- The machine gets to a result, or runs out of stack. -/
def Does {β : Type} (y : V β) (m : VM) (P : β → VM → Prop) : Prop := Over y m ∨ ∃ b m', y m = (.ok b, m') ∧ P b m'

section
variable {α β γ δ : Type} {m : VM}

theorem Over.bind {y : V β} (h : Over y m) (k : β → V γ) : Over (y >>= k) m := by
  obtain ⟨s, m', h1, h2⟩ := h
  exact ⟨s, m', bind_panic h1, h2⟩

theorem Over.after {y : V β} {b : β} {m1 : VM} {k : β → V γ} (h : y m = (.ok b, m1)) (ho : Over (k b) m1) :
    Over (y >>= k) m := by
  obtain ⟨s, m', h1, h2⟩ := ho
  exact ⟨s, m', (bind_ok h).trans h1, h2⟩

theorem Does.pure {b : β} {P : β → VM → Prop} (h : P b m) : Does (pure b) m P := .inr ⟨b, m, rfl, h⟩

theorem Does.bind {y : V β} {k : β → V γ} {P : β → VM → Prop} {Q : γ → VM → Prop} (h : Does y m P)
    (hk : ∀ b m1, P b m1 → Does (k b) m1 Q) : Does (y >>= k) m Q := by
  rcases h with h | ⟨b, m1, h1, h2⟩
  · exact .inl (h.bind k)
  · rcases hk b m1 h2 with h | ⟨c, m2, h3, h4⟩
    · exact .inl (.after h1 h)
    · exact .inr ⟨c, m2, (bind_ok h1).trans h3, h4⟩

theorem Does.mono {y : V β} {P Q : β → VM → Prop} (h : Does y m P) (hpq : ∀ b m1, P b m1 → Q b m1) : Does y m Q := by
  rcases h with h | ⟨b, m1, h1, h2⟩
  · exact .inl h
  · exact .inr ⟨b, m1, h1, hpq b m1 h2⟩

theorem Does.of {y : V β} {b : β} {m1 : VM} {P : β → VM → Prop} (h : y m = (.ok b, m1)) (hp : P b m1) : Does y m P :=
  .inr ⟨b, m1, h, hp⟩

/-- A computation of the machine that does not depend on the budget follows one of the evaluator. -/
def SimV (y : V β) (m : VM) (o : Out α × State) (Q : α → State → β → VM → Prop) : Prop :=
  Over y m ∨
    match o with
    | (.ok a, σ) => ∃ b m', y m = (.ok b, m') ∧ Q a σ b m'
    | (.err e, _) => ∃ m', y m = (.err e, m')
    | (.abort, _) => ∃ s m', y m = (.panic s, m')
    | (.stuck, _) => True
    | (.jump _, _) => False
    | (.timeout, _) => False

theorem SimV.ok {y : V β} {a : α} {σ : State} {Q : α → State → β → VM → Prop} (h : Does y m (Q a σ)) :
    SimV y m (.ok a, σ) Q := h

theorem SimV.pure {b : β} {a : α} {σ : State} {Q : α → State → β → VM → Prop} (h : Q a σ b m) :
    SimV (pure b) m (.ok a, σ) Q := .ok (.pure h)

theorem SimV.err {e : RtErr} {σ : State} {Q : α → State → β → VM → Prop} : SimV (V.err e) m (.err e, σ) Q :=
  .inr ⟨m, rfl⟩

theorem SimV.abort {s : String} {σ : State} {Q : α → State → β → VM → Prop} : SimV (V.panic s) m (.abort, σ) Q :=
  .inr ⟨s, m, rfl⟩

theorem SimV.stuck {y : V β} {σ : State} {Q : α → State → β → VM → Prop} : SimV y m (.stuck, σ) Q := .inr trivial

/-- Both go on. -/
theorem SimV.bind {y : V β} {k : β → V δ} {x : S α} {j : α → S γ} {σ : State} {Q : α → State → β → VM → Prop}
    {Q' : γ → State → δ → VM → Prop} (h : SimV y m (x σ) Q)
    (hk : ∀ a σ1 b m1, Q a σ1 b m1 → SimV (k b) m1 (j a σ1) Q') : SimV (y >>= k) m ((x >>= j) σ) Q' := by
  show SimV (y >>= k) m (S.bind x j σ) Q'
  rcases h with h | h
  · exact .inl (h.bind k)
  · unfold S.bind
    cases hx : x σ with
    | mk o σ1 =>
      rw [hx] at h
      cases o with
      | ok a =>
        obtain ⟨b, m1, h1, h2⟩ := h
        rcases hk a σ1 b m1 h2 with h3 | h3
        · exact .inl (.after h1 h3)
        · refine .inr ?_
          simp only
          cases hj : j a σ1 with
          | mk o2 σ2 =>
            rw [hj] at h3
            cases o2 with
            | ok c =>
              obtain ⟨d, m2, h4, h5⟩ := h3
              exact ⟨d, m2, (bind_ok h1).trans h4, h5⟩
            | err e =>
              obtain ⟨m2, h4⟩ := h3
              exact ⟨m2, (bind_ok h1).trans h4⟩
            | abort =>
              obtain ⟨s, m2, h4⟩ := h3
              exact ⟨s, m2, (bind_ok h1).trans h4⟩
            | stuck => trivial
            | jump => exact h3
            | timeout => exact h3
      | err e => obtain ⟨m1, h1⟩ := h; exact .inr ⟨m1, bind_err h1⟩
      | abort => obtain ⟨s, m1, h1⟩ := h; exact .inr ⟨s, m1, bind_panic h1⟩
      | stuck => exact .inr trivial
      | jump => exact h.elim
      | timeout => exact h.elim

/-- The machine goes first. -/
theorem SimV.step {y : V β} {k : β → V δ} {o : Out α × State} {P : β → VM → Prop} {Q : α → State → δ → VM → Prop}
    (h : Does y m P) (hk : ∀ b m1, P b m1 → SimV (k b) m1 o Q) : SimV (y >>= k) m o Q := by
  obtain ⟨o, σ⟩ := o
  have := SimV.bind (x := fun σ => (.ok (), σ)) (j := fun _ _ => (o, σ)) (σ := σ) (Q := fun _ _ => P) (SimV.ok h)
    (k := k) (Q' := Q) (fun _ _ b m1 hp => hk b m1 hp)
  exact this

theorem SimV.mono {y : V β} {o : Out α × State} {Q Q' : α → State → β → VM → Prop} (h : SimV y m o Q)
    (hq : ∀ a σ b m, Q a σ b m → Q' a σ b m) : SimV y m o Q' := by
  rcases h with h | h
  · exact .inl h
  · refine .inr ?_
    obtain ⟨o, σ⟩ := o
    cases o with
    | ok a => obtain ⟨b, m1, h1, h2⟩ := h; exact ⟨b, m1, h1, hq _ _ _ _ h2⟩
    | _ => exact h

end

/-! ## Code -/

/-- The machine panics because it runs out of stack. -/
def OverX (x : X) (m : VM) : Prop := ∃ s m', Ends x m (.panic s) m' ∧ maxStack ≤ m'.ptr

/-- The machine does not end within `N` steps. -/
def Stalls (N : Nat) (x : X) (m : VM) : Prop := ∀ n, n < N → (x n m).1 = .timeout

/-- How code ends for a jump. -/
def resOf : Jump → Res
  | .brk _ => .done .brk
  | .cont _ => .done .cont
  | .ret _ _ => .done .stop
  | .bad e => .err e
  | .exit _ => .done .exit

/-- `return` is only followed under a condition. -/
def Jumps (R : Prop) : Jump → Prop
  | .ret _ _ => R
  | .bad _ => R
  | _ => True

/-- Code follows the evaluator. -/
def Sim {α : Type} (N : Nat) (R : Prop) (x : X) (m : VM) (o : Out α × State) (Q : α → State → Sig → VM → Prop)
    (J : Jump → State → VM → Prop) : Prop :=
  OverX x m ∨
    match o with
    | (.ok a, σ) => ∃ s m', Ends x m (.done s) m' ∧ Q a σ s m'
    | (.jump j, σ) => Jumps R j → ∃ m', Ends x m (resOf j) m' ∧ J j σ m'
    | (.err e, _) => ∃ m', Ends x m (.err e) m'
    | (.abort, _) => ∃ s m', Ends x m (.panic s) m'
    | (.stuck, _) => True
    | (.timeout, _) => Stalls N x m

/-- Code that ends normally. -/
def Norm {α : Type} (Q : α → State → VM → Prop) (a : α) (σ : State) (s : Sig) (m : VM) : Prop := s = .normal ∧ Q a σ m

/-- No jumps. -/
def NoJump (_ : Jump) (_ : State) (_ : VM) : Prop := False

section
variable {α β γ : Type} {N : Nat} {R : Prop} {m : VM} {w : World} {f : Frame} {ups : Option (List Nat)}
  {Q : α → State → Sig → VM → Prop} {J : Jump → State → VM → Prop}

theorem Sim.mono {x : X} {o : Out α × State} {Q' : α → State → Sig → VM → Prop} {J' : Jump → State → VM → Prop} {R' : Prop}
    (h : Sim N R x m o Q J) (hq : ∀ a σ s m, Q a σ s m → Q' a σ s m) (hr : R' → R)
    (hj : ∀ j σ m, J j σ m → J' j σ m) : Sim N R' x m o Q' J' := by
  rcases h with h | h
  · exact .inl h
  · refine .inr ?_
    obtain ⟨o, σ⟩ := o
    cases o with
    | ok a => obtain ⟨b, m1, h1, h2⟩ := h; exact ⟨b, m1, h1, hq _ _ _ _ h2⟩
    | jump j =>
      intro hr'
      have : Jumps R j := by cases j <;> first | exact hr hr' | trivial
      obtain ⟨m1, h1, h2⟩ := h this
      exact ⟨m1, h1, hj _ _ _ h2⟩
    | _ => exact h

theorem Sim.post {x : X} {o : Out α × State} {Q' : α → State → Sig → VM → Prop}
    (h : Sim N R x m o Q J) (hq : ∀ a σ s m, Q a σ s m → Q' a σ s m) : Sim N R x m o Q' J :=
  h.mono hq id fun _ _ _ h => h

theorem Sim.stuck {x : X} {σ : State} : Sim N R x m (.stuck, σ) Q J := .inr trivial

/-- The budget that is left is not more than there was. -/
theorem exec_left {c : Code} {n k : Nat} {s : Sig} {m m' : VM} (h : exec w f ups c n m = (.ok (s, k), m')) : k ≤ n := by
  have tk : ∀ {x : X} {n : Nat} {m m' : VM} {s : Sig} {k : Nat}, tick x n m = (.ok (s, k), m') →
      (∀ n' m m' s k, x n' m = (.ok (s, k), m') → k ≤ n') → k ≤ n := by
    intro x n m m' s k h hx
    cases n with
    | zero => cases h
    | succ n => have := hx n m m' s k h; omega
  have cond : ∀ {b : Bool} {s' : Sig} {n k : Nat} {s : Sig} {m m' : VM}, condSig b s' n m = (.ok (s, k), m') → k ≤ n := by
    intro b s' n k s m m' h
    refine tk h ?_
    intro n' m m' s k h
    obtain ⟨x, m1, h1, h2⟩ := bind_ok_inv h
    cases h2; exact Nat.le_refl _
  induction c generalizing n k s m m' with
  | nop => cases h; exact Nat.le_refl _
  | instr i =>
    refine tk h ?_
    intro n' m m' s k h
    obtain ⟨x, m1, h1, h2⟩ := bind_ok_inv h
    cases h2; exact Nat.le_refl _
  | seq a b iha ihb =>
    obtain ⟨⟨s1, k1⟩, m1, h1, h2⟩ := bind_ok_inv h
    have := iha h1
    cases s1 with
    | normal => have := ihb h2; omega
    | _ => cases h2; omega
  | skipIf b c ih =>
    refine tk h ?_
    intro n' m m' s k h
    obtain ⟨x, m1, h1, h2⟩ := bind_ok_inv h
    split at h2
    · cases h2; exact Nat.le_refl _
    · exact ih h2
  | branch t e iht ihe =>
    refine tk h ?_
    intro n' m m' s k h
    obtain ⟨x, m1, h1, h2⟩ := bind_ok_inv h
    split at h2
    · obtain ⟨⟨s1, k1⟩, m1, h3, h4⟩ := bind_ok_inv h2
      have := iht h3
      cases s1 with
      | normal =>
        have : k ≤ k1 := tk h4 (fun n' m m' s k h => by cases h; exact Nat.le_refl _)
        omega
      | _ => cases h4; omega
    · exact ihe h2
  | loop c ih =>
    have key : ∀ g n m m' s k, iterate (exec w f ups c) g n m = (.ok (s, k), m') → k ≤ n := by
      intro g
      induction g with
      | zero => intro n m m' s k h; cases h
      | succ g ihg =>
        intro n m m' s k h
        obtain ⟨⟨s1, k1⟩, m1, h1, h2⟩ := bind_ok_inv h
        have := ih h1
        cases s1 with
        | normal =>
          have : k ≤ k1 := tk h2 (fun n' m m' s k h => ihg n' m m' s k h)
          omega
        | cont => have := ihg _ _ _ _ _ h2; omega
        | _ => cases h2; omega
    exact key _ _ _ _ _ _ h
  | breakIf b => exact cond h
  | brk => exact tk h (fun n' m m' s k h => by cases h; exact Nat.le_refl _)
  | cont => exact tk h (fun n' m m' s k h => by cases h; exact Nat.le_refl _)
  | chain c ih =>
    obtain ⟨⟨s1, k1⟩, m1, h1, h2⟩ := bind_ok_inv h
    have := ih h1
    cases s1 <;> cases h2 <;> omega
  | exitIf b => exact cond h

/-- With any budget the machine gets to the same end or nowhere. -/
theorem exec_or {c : Code} {r : Res} {m' : VM} (h : Runs w f ups c m r m') (n : Nat) :
    (exec w f ups c n m).1 = .timeout ∨
      ((exec w f ups c n m).1.res = some r ∧ (exec w f ups c n m).2 = m') := by
  cases hr : (exec w f ups c n m).1.res with
  | none =>
    left
    cases ho : (exec w f ups c n m).1 with
    | timeout => rfl
    | ok a => rw [ho] at hr; cases hr
    | err a => rw [ho] at hr; cases hr
    | panic a => rw [ho] at hr; cases hr
  | some r' =>
    right
    have h' : Runs w f ups c m r' (exec w f ups c n m).2 := ⟨n, hr, rfl⟩
    obtain ⟨e1, e2⟩ := h.det h'
    exact ⟨congrArg some e1.symm, e2.symm⟩

theorem exec_or_done {c : Code} {s : Sig} {m' : VM} (h : Runs w f ups c m (.done s) m') (n : Nat) :
    (exec w f ups c n m).1 = .timeout ∨ ∃ k, k ≤ n ∧ exec w f ups c n m = (.ok (s, k), m') := by
  rcases exec_or h n with h | ⟨h1, h2⟩
  · exact .inl h
  · right
    cases ho : exec w f ups c n m with
    | mk o m1 =>
      rw [ho] at h1 h2
      cases o with
      | ok a =>
        obtain ⟨s', k⟩ := a
        cases h1; cases h2
        exact ⟨k, exec_left ho, rfl⟩
      | _ => cases h1

theorem bind_timeout1 {y : V β} {k : β → V γ} (h : (y m).1 = .timeout) : ((y >>= k) m).1 = .timeout := by
  cases ho : y m with
  | mk o m1 =>
    rw [ho] at h
    cases h
    rw [show (y >>= k) m = V.bind y k m from rfl]
    unfold V.bind
    rw [ho]

/-- Code after code that ended normally. -/
theorem Sim.after {a b : Code} {m1 : VM} {o : Out α × State} (h1 : Runs w f ups a m (.done .normal) m1)
    (h : Sim N R (exec w f ups b) m1 o Q J) : Sim N R (exec w f ups (.seq a b)) m o Q J := by
  have join : ∀ {r m'}, Runs w f ups b m1 r m' → Runs w f ups (.seq a b) m r m' := by
    intro r m' hr
    exact runs_seq.2 (.inr ⟨m1, h1, hr⟩)
  rcases h with ⟨s, m', h2, h3⟩ | h
  · exact .inl ⟨s, m', join h2, h3⟩
  · refine .inr ?_
    obtain ⟨o, σ⟩ := o
    cases o with
    | ok c => obtain ⟨s, m', h2, h3⟩ := h; exact ⟨s, m', join h2, h3⟩
    | jump j =>
      intro hj
      obtain ⟨m', h2, h3⟩ := h hj
      exact ⟨m', join h2, h3⟩
    | err e => obtain ⟨m', h2⟩ := h; exact ⟨m', join h2⟩
    | abort => obtain ⟨s, m', h2⟩ := h; exact ⟨s, m', join h2⟩
    | stuck => trivial
    | timeout =>
      intro n hn
      show ((exec w f ups a n >>= thenRun (exec w f ups b)) m).1 = _
      rcases exec_or_done h1 n with ht | ⟨k, hk, he⟩
      · exact bind_timeout1 ht
      · rw [bind_ok he]
        exact h k (by omega)

theorem runs_seq_left {a b : Code} {r : Res} {m' : VM} (h : Runs w f ups a m r m') (hr : r ≠ .done .normal) :
    Runs w f ups (.seq a b) m r m' := runs_seq.2 (.inl ⟨h, hr⟩)

theorem resOf_ne (j : Jump) : resOf j ≠ .done .normal := by
  cases j <;> simp [resOf]

theorem stalls_seq {a b : Code} (h : Stalls N (exec w f ups a) m) : Stalls N (exec w f ups (.seq a b)) m :=
  fun n hn => bind_timeout1 (h n hn)

/-- Code that ends where the evaluator goes on. -/
theorem Sim.seq {a b : Code} {x : S β} {k : β → S α} {σ : State} {P : β → State → VM → Prop}
    (h : Sim N R (exec w f ups a) m (x σ) (Norm P) J)
    (hk : ∀ v σ1 m1, P v σ1 m1 → Sim N R (exec w f ups b) m1 (k v σ1) Q J) :
    Sim N R (exec w f ups (.seq a b)) m ((x >>= k) σ) Q J := by
  show Sim N R _ m (S.bind x k σ) Q J
  rcases h with ⟨s, m', h2, h3⟩ | h
  · exact .inl ⟨s, m', runs_seq_left h2 (by simp), h3⟩
  · unfold S.bind
    cases hx : x σ with
    | mk o σ1 =>
      rw [hx] at h
      cases o with
      | ok v =>
        obtain ⟨s, m1, h1, rfl, h2⟩ := h
        exact Sim.after h1 (hk v σ1 m1 h2)
      | jump j =>
        refine .inr fun hj => ?_
        obtain ⟨m1, h1, h2⟩ := h hj
        exact ⟨m1, runs_seq_left h1 (resOf_ne j), h2⟩
      | err e => obtain ⟨m1, h1⟩ := h; exact .inr ⟨m1, runs_seq_left h1 (by simp)⟩
      | abort => obtain ⟨s, m1, h1⟩ := h; exact .inr ⟨s, m1, runs_seq_left h1 (by simp)⟩
      | stuck => exact .inr trivial
      | timeout => exact .inr (stalls_seq h)

/-- The last code of a block. -/
theorem Sim.last {a : Code} {o : Out α × State} (h : Sim N R (exec w f ups a) m o Q J) :
    Sim N R (exec w f ups (.seq a .nop)) m o Q J := by
  have join : ∀ {r m'}, Runs w f ups a m r m' → Runs w f ups (.seq a .nop) m r m' := by
    intro r m' hr
    by_cases hn : r = .done .normal
    · subst hn; exact runs_seq.2 (.inr ⟨m', hr, runs_nop.2 ⟨rfl, rfl⟩⟩)
    · exact runs_seq_left hr hn
  rcases h with ⟨s, m', h2, h3⟩ | h
  · exact .inl ⟨s, m', join h2, h3⟩
  · refine .inr ?_
    obtain ⟨o, σ⟩ := o
    cases o with
    | ok c => obtain ⟨s, m', h2, h3⟩ := h; exact ⟨s, m', join h2, h3⟩
    | jump j =>
      intro hj
      obtain ⟨m', h2, h3⟩ := h hj
      exact ⟨m', join h2, h3⟩
    | err e => obtain ⟨m', h2⟩ := h; exact ⟨m', join h2⟩
    | abort => obtain ⟨s, m', h2⟩ := h; exact ⟨s, m', join h2⟩
    | stuck => trivial
    | timeout => exact stalls_seq h

theorem Sim.nop {a : α} {σ : State} (h : Q a σ .normal m) : Sim N R (exec w f ups .nop) m (.ok a, σ) Q J :=
  .inr ⟨.normal, m, runs_nop.2 ⟨rfl, rfl⟩, h⟩

/-- The evaluator goes on alone. -/
theorem Sim.thenE {x : X} {e : S β} {k : β → S α} {σ : State} {P : β → State → Sig → VM → Prop}
    (h : Sim N R x m (e σ) P J)
    (hk : ∀ v σ1 s m1, P v σ1 s m1 → ∃ a σ2, k v σ1 = (.ok a, σ2) ∧ Q a σ2 s m1) :
    Sim N R x m ((e >>= k) σ) Q J := by
  show Sim N R _ m (S.bind e k σ) Q J
  rcases h with h | h
  · exact .inl h
  · unfold S.bind
    cases hx : e σ with
    | mk o σ1 =>
      rw [hx] at h
      cases o with
      | ok v =>
        obtain ⟨s, m1, h1, h2⟩ := h
        obtain ⟨a, σ2, h3, h4⟩ := hk v σ1 s m1 h2
        simp only [h3]
        exact .inr ⟨s, m1, h1, h4⟩
      | _ => exact .inr h

theorem SimV.thenE {y : V γ} {e : S β} {k : β → S α} {σ : State} {P : β → State → γ → VM → Prop}
    {Q : α → State → γ → VM → Prop} (h : SimV y m (e σ) P)
    (hk : ∀ v σ1 s m1, P v σ1 s m1 → ∃ a σ2, k v σ1 = (.ok a, σ2) ∧ Q a σ2 s m1) : SimV y m ((e >>= k) σ) Q := by
  show SimV _ m (S.bind e k σ) Q
  rcases h with h | h
  · exact .inl h
  · unfold S.bind
    cases hx : e σ with
    | mk o σ1 =>
      rw [hx] at h
      cases o with
      | ok v =>
        obtain ⟨s, m1, h1, h2⟩ := h
        obtain ⟨a, σ2, h3, h4⟩ := hk v σ1 s m1 h2
        simp only [h3]
        exact .inr ⟨s, m1, h1, h4⟩
      | _ => exact .inr h

/-- An operand: the evaluator does not jump out of it. -/
theorem Sim.operand {x : X} {e : S α} {σ : State} {R' : Prop} {J' : Jump → State → VM → Prop}
    (h : Sim N R' x m (e σ) Q J') : Sim N R x m (S.operand e σ) Q J := by
  rcases h with h | h
  · exact .inl h
  · unfold S.operand
    cases hx : e σ with
    | mk o σ1 =>
      rw [hx] at h
      cases o with
      | jump j => exact .inr trivial
      | ok => exact .inr h
      | err => exact .inr h
      | abort => exact .inr h
      | stuck => exact .inr h
      | timeout => exact .inr h

/-! ## Instructions -/

theorem runs_istep {i : Instr} {s : Sig} {m' : VM} (h : istep w 0 f ups i m = (.ok s, m')) :
    Runs w f ups (.instr i) m (.done s) m' := runs_instr.2 ⟨0, .inr ⟨s, h, rfl⟩⟩

theorem runs_istep_err {i : Instr} {e : RtErr} {m' : VM} (h : istep w 0 f ups i m = (.err e, m')) :
    Runs w f ups (.instr i) m (.err e) m' := runs_instr.2 ⟨0, .inl (by rw [h]; exact ⟨rfl, rfl⟩)⟩

theorem runs_istep_panic {i : Instr} {s : String} {m' : VM} (h : istep w 0 f ups i m = (.panic s, m')) :
    Runs w f ups (.instr i) m (.panic s) m' := runs_instr.2 ⟨0, .inl (by rw [h]; exact ⟨rfl, rfl⟩)⟩

/-- An instruction without calls. -/
theorem Sim.instr {i : Instr} {o : Out α × State} (h : SimV (istep w 0 f ups i) m o Q) :
    Sim N R (exec w f ups (.instr i)) m o Q J := by
  rcases h with ⟨s, m', h, h2⟩ | h
  · exact .inl ⟨s, m', runs_istep_panic h, h2⟩
  · refine .inr ?_
    obtain ⟨o, σ⟩ := o
    cases o with
    | ok a => obtain ⟨s, m', h1, h2⟩ := h; exact ⟨s, m', runs_istep h1, h2⟩
    | err e => obtain ⟨m', h1⟩ := h; exact ⟨m', runs_istep_err h1⟩
    | abort => obtain ⟨s, m', h1⟩ := h; exact ⟨s, m', runs_istep_panic h1⟩
    | stuck => trivial
    | jump => exact h.elim
    | timeout => exact h.elim

/-- An instruction in which the evaluator does nothing. -/
theorem Sim.step {i : Instr} {b : Code} {o : Out α × State} {P : VM → Prop}
    (h : Does (istep w 0 f ups i) m fun s m1 => s = .normal ∧ P m1)
    (hk : ∀ m1, P m1 → Sim N R (exec w f ups b) m1 o Q J) :
    Sim N R (exec w f ups (.seq (.instr i) b)) m o Q J := by
  rcases h with ⟨s, m', h, h2⟩ | ⟨s, m1, h1, rfl, h2⟩
  · exact .inl ⟨s, m', runs_seq_left (runs_istep_panic h) (by simp), h2⟩
  · exact Sim.after (runs_istep h1) (hk m1 h2)

/-- Code of the machine that ends normally, or runs out of stack. -/
def DoesX (w : World) (f : Frame) (ups : Option (List Nat)) (c : Code) (m : VM) (P : VM → Prop) : Prop :=
  OverX (exec w f ups c) m ∨ ∃ m', Runs w f ups c m (.done .normal) m' ∧ P m'

theorem DoesX.nop {P : VM → Prop} (h : P m) : DoesX w f ups .nop m P := .inr ⟨m, runs_nop.2 ⟨rfl, rfl⟩, h⟩

theorem DoesX.seq {a b : Code} {P P' : VM → Prop} (h : DoesX w f ups a m P)
    (hk : ∀ m1, P m1 → DoesX w f ups b m1 P') : DoesX w f ups (.seq a b) m P' := by
  rcases h with ⟨s, m', h1, h2⟩ | ⟨m1, h1, h2⟩
  · exact .inl ⟨s, m', runs_seq_left h1 (by simp), h2⟩
  · rcases hk m1 h2 with ⟨s, m', h3, h4⟩ | ⟨m', h3, h4⟩
    · exact .inl ⟨s, m', runs_seq.2 (.inr ⟨m1, h1, h3⟩), h4⟩
    · exact .inr ⟨m', runs_seq.2 (.inr ⟨m1, h1, h3⟩), h4⟩

theorem DoesX.instr {i : Instr} {P : VM → Prop} (h : Does (istep w 0 f ups i) m fun s m1 => s = .normal ∧ P m1) :
    DoesX w f ups (.instr i) m P := by
  rcases h with ⟨s, m', h, h2⟩ | ⟨s, m1, h1, rfl, h2⟩
  · exact .inl ⟨s, m', runs_istep_panic h, h2⟩
  · exact .inr ⟨m1, runs_istep h1, h2⟩

theorem DoesX.mono {c : Code} {P P' : VM → Prop} (h : DoesX w f ups c m P) (hp : ∀ m, P m → P' m) :
    DoesX w f ups c m P' := by
  rcases h with h | ⟨m1, h1, h2⟩
  · exact .inl h
  · exact .inr ⟨m1, h1, hp _ h2⟩

/-- Code in which the evaluator does nothing. -/
theorem Sim.steps {a b : Code} {o : Out α × State} {P : VM → Prop} (h : DoesX w f ups a m P)
    (hk : ∀ m1, P m1 → Sim N R (exec w f ups b) m1 o Q J) : Sim N R (exec w f ups (.seq a b)) m o Q J := by
  rcases h with ⟨s, m', h, h2⟩ | ⟨m1, h1, h2⟩
  · exact .inl ⟨s, m', runs_seq_left h (by simp), h2⟩
  · exact Sim.after h1 (hk m1 h2)

theorem Sim.ofDoes {c : Code} {a : α} {σ : State} {P : VM → Prop} (h : DoesX w f ups c m P)
    (hk : ∀ m1, P m1 → Q a σ .normal m1) : Sim N R (exec w f ups c) m (.ok a, σ) Q J := by
  rcases h with h | ⟨m1, h1, h2⟩
  · exact .inl h
  · exact .inr ⟨.normal, m1, h1, hk m1 h2⟩

/-! ## Conditions -/

theorem Stalls.tick {x : X} (h : Stalls N x m) : Stalls N (tick x) m := by
  intro n hn
  cases n with
  | zero => rfl
  | succ n => exact h n (by omega)

/-- Code under a condition whose value is known. -/
theorem Sim.skipIf {b : Bool} {c : Code} {o : Out α × State}
    (h : Does popBool m fun x m1 => (x = b → Sim N R (exec w f ups .nop) m1 o Q J) ∧
      (x ≠ b → Sim N R (exec w f ups c) m1 o Q J)) : Sim N R (exec w f ups (.skipIf b c)) m o Q J := by
  rcases h with ⟨s, m', h1, h2⟩ | ⟨x, m1, h1, h2, h3⟩
  · exact .inl ⟨s, m', runs_skipIf.2 (.inl (by rw [h1]; exact ⟨rfl, rfl⟩)), h2⟩
  · have join : ∀ c', (exec w f ups c' = if x = b then exec w f ups .nop else exec w f ups c) →
        Sim N R (exec w f ups c') m1 o Q J → Sim N R (exec w f ups (.skipIf b c)) m o Q J := by
      intro c' hc hs
      have run : ∀ {r m'}, Runs w f ups c' m1 r m' → Runs w f ups (.skipIf b c) m r m' := by
        intro r m' hr
        refine runs_skipIf.2 (.inr ⟨x, m1, h1, ?_⟩)
        unfold Runs at hr
        rw [hc] at hr
        split
        · rename_i hx; rw [if_pos hx] at hr; exact runs_nop.1 hr
        · rename_i hx; rw [if_neg hx] at hr; exact hr
      rcases hs with ⟨s, m', h2, h3⟩ | h
      · exact .inl ⟨s, m', run h2, h3⟩
      · refine .inr ?_
        obtain ⟨o, σ⟩ := o
        cases o with
        | ok c => obtain ⟨s, m', h2, h3⟩ := h; exact ⟨s, m', run h2, h3⟩
        | jump j =>
          intro hj
          obtain ⟨m', h2, h3⟩ := h hj
          exact ⟨m', run h2, h3⟩
        | err e => obtain ⟨m', h2⟩ := h; exact ⟨m', run h2⟩
        | abort => obtain ⟨s, m', h2⟩ := h; exact ⟨s, m', run h2⟩
        | stuck => trivial
        | timeout =>
          refine Stalls.tick (fun n hn => ?_)
          rw [bind_ok h1]
          have := h n hn
          rw [hc] at this
          split
          · rename_i hx; rw [if_pos hx] at this; exact this
          · rename_i hx; rw [if_neg hx] at this; exact this
    by_cases hx : x = b
    · exact join .nop (by rw [if_pos hx]) (h2 hx)
    · exact join c (by rw [if_neg hx]) (h3 hx)

/-- A choice of the evaluator. -/
theorem Sim.branch {t e : Code} {x : S β} {k : β → S α} {σ : State} {P : β → State → Bool → VM → Prop}
    (h : SimV popBool m (x σ) P)
    (ht : ∀ a σ1 m1, P a σ1 true m1 → Sim N R (exec w f ups t) m1 (k a σ1) Q J)
    (he : ∀ a σ1 m1, P a σ1 false m1 → Sim N R (exec w f ups e) m1 (k a σ1) Q J) :
    Sim N R (exec w f ups (.branch t e)) m ((x >>= k) σ) Q J := by
  show Sim N R _ m (S.bind x k σ) Q J
  rcases h with ⟨s, m', h1, h2⟩ | h
  · exact .inl ⟨s, m', runs_branch.2 (.inl (by rw [h1]; exact ⟨rfl, rfl⟩)), h2⟩
  · unfold S.bind
    cases hx : x σ with
    | mk o σ1 =>
      rw [hx] at h
      cases o with
      | ok a =>
        obtain ⟨b, m1, h1, h2⟩ := h
        have hs : Sim N R (exec w f ups (if b then t else e)) m1 (k a σ1) Q J := by
          cases b
          · exact he a σ1 m1 h2
          · exact ht a σ1 m1 h2
        have run : ∀ {r m'}, Runs w f ups (if b then t else e) m1 r m' → Runs w f ups (.branch t e) m r m' := by
          intro r m' hr
          refine runs_branch.2 (.inr ⟨b, m1, h1, ?_⟩)
          cases b <;> exact hr
        simp only
        rcases hs with ⟨s, m', h2, h3⟩ | h
        · exact .inl ⟨s, m', run h2, h3⟩
        · refine .inr ?_
          revert h
          cases k a σ1 with
          | mk o σ =>
          cases o with
          | ok c => rintro ⟨s, m', h2, h3⟩; exact ⟨s, m', run h2, h3⟩
          | jump j =>
            intro h hj
            obtain ⟨m', h2, h3⟩ := h hj
            exact ⟨m', run h2, h3⟩
          | err e => rintro ⟨m', h2⟩; exact ⟨m', run h2⟩
          | abort => rintro ⟨s, m', h2⟩; exact ⟨s, m', run h2⟩
          | stuck => exact fun _ => trivial
          | timeout =>
            intro h
            refine Stalls.tick (fun n hn => ?_)
            rw [bind_ok h1]
            have := h n hn
            cases b
            · exact this
            · exact bind_timeout1 this
      | err e => obtain ⟨m1, h1⟩ := h; exact .inr ⟨m1, runs_branch.2 (.inl (by rw [h1]; exact ⟨rfl, rfl⟩))⟩
      | abort => obtain ⟨s, m1, h1⟩ := h; exact .inr ⟨s, m1, runs_branch.2 (.inl (by rw [h1]; exact ⟨rfl, rfl⟩))⟩
      | stuck => exact .inr trivial
      | jump => exact h.elim
      | timeout => exact h.elim

/-- The condition of a loop. -/
theorem Sim.breakIf {b : Bool} {c : Code} {x : S β} {k : β → S α} {σ : State} {P : β → State → Bool → VM → Prop}
    (h : SimV popBool m (x σ) P)
    (hb : ∀ a σ1 m1, P a σ1 b m1 → ∃ a' σ2, k a σ1 = (.ok a', σ2) ∧ Q a' σ2 .brk m1)
    (hc : ∀ a σ1 m1, P a σ1 (!b) m1 → Sim N R (exec w f ups c) m1 (k a σ1) Q J) :
    Sim N R (exec w f ups (.seq (.breakIf b) c)) m ((x >>= k) σ) Q J := by
  show Sim N R _ m (S.bind x k σ) Q J
  rcases h with ⟨s, m', h1, h2⟩ | h
  · exact .inl ⟨s, m', runs_seq_left (runs_breakIf.2 (.inl (by rw [h1]; exact ⟨rfl, rfl⟩))) (by simp), h2⟩
  · unfold S.bind
    cases hx : x σ with
    | mk o σ1 =>
      rw [hx] at h
      cases o with
      | ok a =>
        obtain ⟨y, m1, h1, h2⟩ := h
        have hr := (runs_breakIf (w := w) (f := f) (ups := ups) (b := b)).2 (.inr ⟨y, m1, h1, rfl, rfl⟩)
        by_cases hy : y = b
        · subst hy
          rw [if_pos rfl] at hr
          obtain ⟨a', σ2, h3, h4⟩ := hb a σ1 m1 h2
          simp only [h3]
          exact .inr ⟨.brk, m1, runs_seq_left hr (by simp), h4⟩
        · rw [if_neg hy] at hr
          have : y = !b := by cases y <;> cases b <;> simp_all
          subst this
          exact Sim.after hr (hc a σ1 m1 h2)
      | err e =>
        obtain ⟨m1, h1⟩ := h
        exact .inr ⟨m1, runs_seq_left (runs_breakIf.2 (.inl (by rw [h1]; exact ⟨rfl, rfl⟩))) (by simp)⟩
      | abort =>
        obtain ⟨s, m1, h1⟩ := h
        exact .inr ⟨s, m1, runs_seq_left (runs_breakIf.2 (.inl (by rw [h1]; exact ⟨rfl, rfl⟩))) (by simp)⟩
      | stuck => exact .inr trivial
      | jump => exact h.elim
      | timeout => exact h.elim

/-- A condition, and code that is skipped. -/
theorem Sim.skipElse {b : Bool} {c d : Code} {x : S β} {k : β → S α} {σ : State} {P : β → State → Bool → VM → Prop}
    (h : SimV popBool m (x σ) P)
    (hb : ∀ a σ1 m1, P a σ1 b m1 → Sim N R (exec w f ups d) m1 (k a σ1) Q J)
    (hc : ∀ a σ1 m1, P a σ1 (!b) m1 → Sim N R (exec w f ups (.seq c d)) m1 (k a σ1) Q J) :
    Sim N R (exec w f ups (.seq (.skipIf b c) d)) m ((x >>= k) σ) Q J := by
  show Sim N R _ m (S.bind x k σ) Q J
  rcases h with ⟨s, m', h1, h2⟩ | h
  · exact .inl ⟨s, m', runs_seq_left (runs_skipIf.2 (.inl (by rw [h1]; exact ⟨rfl, rfl⟩))) (by simp), h2⟩
  · unfold S.bind
    cases hx : x σ with
    | mk o σ1 =>
      rw [hx] at h
      cases o with
      | ok a =>
        obtain ⟨y, m1, h1, h2⟩ := h
        by_cases hy : y = b
        · subst hy
          exact Sim.after (runs_skipIf.2 (.inr ⟨y, m1, h1, by rw [if_pos rfl]; exact ⟨rfl, rfl⟩⟩)) (hb a σ1 m1 h2)
        · have : y = !b := by cases y <;> cases b <;> simp_all
          have hs := hc a σ1 m1 (this ▸ h2)
          have skip : ∀ {r m'}, Runs w f ups c m1 r m' → Runs w f ups (.skipIf b c) m r m' :=
            fun hr => runs_skipIf.2 (.inr ⟨y, m1, h1, by rw [if_neg hy]; exact hr⟩)
          have run : ∀ {r m'}, Runs w f ups (.seq c d) m1 r m' → Runs w f ups (.seq (.skipIf b c) d) m r m' := by
            intro r m' hr
            rcases runs_seq.1 hr with ⟨h3, h4⟩ | ⟨m2, h3, h4⟩
            · exact runs_seq.2 (.inl ⟨skip h3, h4⟩)
            · exact runs_seq.2 (.inr ⟨m2, skip h3, h4⟩)
          simp only
          rcases hs with ⟨s, m', h2, h3⟩ | h
          · exact .inl ⟨s, m', run h2, h3⟩
          · refine .inr ?_
            revert h
            cases k a σ1 with
            | mk o σ =>
            cases o with
            | ok c => rintro ⟨s, m', h2, h3⟩; exact ⟨s, m', run h2, h3⟩
            | jump j =>
              intro h hj
              obtain ⟨m', h2, h3⟩ := h hj
              exact ⟨m', run h2, h3⟩
            | err e => rintro ⟨m', h2⟩; exact ⟨m', run h2⟩
            | abort => rintro ⟨s, m', h2⟩; exact ⟨s, m', run h2⟩
            | stuck => exact fun _ => trivial
            | timeout =>
              intro h n hn
              cases n with
              | zero => rfl
              | succ n =>
                have h3 := h n (by omega)
                show (((popBool >>= fun x => if x = b then pure (Sig.normal, n) else exec w f ups c n) >>=
                  thenRun (exec w f ups d)) m).1 = _
                rw [bind_assoc, bind_ok h1, if_neg hy]
                exact h3
      | err e =>
        obtain ⟨m1, h1⟩ := h
        exact .inr ⟨m1, runs_seq_left (runs_skipIf.2 (.inl (by rw [h1]; exact ⟨rfl, rfl⟩))) (by simp)⟩
      | abort =>
        obtain ⟨s, m1, h1⟩ := h
        exact .inr ⟨s, m1, runs_seq_left (runs_skipIf.2 (.inl (by rw [h1]; exact ⟨rfl, rfl⟩))) (by simp)⟩
      | stuck => exact .inr trivial
      | jump => exact h.elim
      | timeout => exact h.elim

/-- Code that does not end normally. -/
theorem Sim.left {a b : Code} {o : Out α × State} (h : Sim N R (exec w f ups a) m o (fun _ _ _ _ => False) J) :
    Sim N R (exec w f ups (.seq a b)) m o Q J := by
  rcases h with ⟨s, m', h2, h3⟩ | h
  · exact .inl ⟨s, m', runs_seq_left h2 (by simp), h3⟩
  · refine .inr ?_
    obtain ⟨o, σ⟩ := o
    cases o with
    | ok c => obtain ⟨s, m', -, h3⟩ := h; exact h3.elim
    | jump j =>
      intro hj
      obtain ⟨m', h2, h3⟩ := h hj
      exact ⟨m', runs_seq_left h2 (resOf_ne j), h3⟩
    | err e => obtain ⟨m', h2⟩ := h; exact ⟨m', runs_seq_left h2 (by simp)⟩
    | abort => obtain ⟨s, m', h2⟩ := h; exact ⟨s, m', runs_seq_left h2 (by simp)⟩
    | stuck => trivial
    | timeout => exact stalls_seq h

/-- The check of a value that is returned, and the `return`. -/
theorem Sim.returned {x : X} {e : S β} {σ : State} {ρ : SEnv} {v : Value}
    (h : Sim N True x m (e σ) (fun _ σ' s m' => s = .stop ∧ J (.ret ρ v) σ' m') NoJump)
    (hb : ∀ e σ m, J (.bad e) σ m) :
    Sim N R x m ((S.returned e >>= fun _ => S.jump (.ret ρ v)) σ) (fun (_ : α) _ _ _ => False) J := by
  show Sim N R x m (S.bind (S.returned e) _ σ) _ J
  rcases h with h | h
  · exact .inl h
  · refine .inr ?_
    unfold S.bind S.returned
    cases hx : e σ with
    | mk o σ1 =>
      rw [hx] at h
      cases o with
      | ok a => obtain ⟨s, m', h1, rfl, h2⟩ := h; exact fun _ => ⟨m', h1, h2⟩
      | err e => obtain ⟨m', h1⟩ := h; exact fun _ => ⟨m', h1, hb _ _ _⟩
      | abort => exact h
      | stuck => trivial
      | timeout => exact h
      | jump j =>
        obtain ⟨m', -, h2⟩ := h (by cases j <;> trivial)
        exact h2.elim

/-- The exit of a chain. -/
theorem Sim.exitIf {b c : Bool} {σ : State} {ρ : SEnv} {a : α} (h : Does popBool m fun x m1 => x = c ∧
      (c = b → J (.exit ρ) σ m1) ∧ (c ≠ b → Q a σ .normal m1)) :
    Sim N R (exec w f ups (.exitIf b)) m ((if c = b then S.jump (.exit ρ) else pure a : S α) σ) Q J := by
  rcases h with ⟨s, m', h1, h2⟩ | ⟨x, m1, h1, rfl, h2, h3⟩
  · exact .inl ⟨s, m', runs_exitIf.2 (.inl (by rw [h1]; exact ⟨rfl, rfl⟩)), h2⟩
  · have hr := (runs_exitIf (w := w) (f := f) (ups := ups) (b := b)).2 (.inr ⟨x, m1, h1, rfl, rfl⟩)
    by_cases hx : x = b
    · rw [if_pos hx] at hr ⊢
      exact .inr fun _ => ⟨m1, hr, h2 hx⟩
    · rw [if_neg hx] at hr ⊢
      exact .inr ⟨.normal, m1, hr, h3 hx⟩

/-- A chain that is not left early. -/
theorem Sim.noExit {x : X} {e : S α} {σ : State} (h : Sim N R x m (e σ) Q J) : Sim N R x m (S.noExit e σ) Q J := by
  rcases h with h | h
  · exact .inl h
  · unfold S.noExit
    cases hx : e σ with
    | mk o σ1 =>
      rw [hx] at h
      cases o with
      | jump j => cases j <;> first | exact .inr trivial | exact .inr h
      | ok => exact .inr h
      | err => exact .inr h
      | abort => exact .inr h
      | stuck => exact .inr h
      | timeout => exact .inr h

theorem Sim.chain {c : Code} {e : S α} {σ : State} {P : α → State → VM → Prop}
    (h : Sim N R (exec w f ups c) m (e σ) (Norm P) J) : Sim N R (exec w f ups (.chain c)) m (S.noExit e σ) (Norm P) J := by
  have run : ∀ {r m'}, Runs w f ups c m r m' → r ≠ .done .exit → Runs w f ups (.chain c) m r m' :=
    fun hr hn => runs_chain.2 (.inl ⟨hr, hn⟩)
  rcases h with ⟨s, m', h2, h3⟩ | h
  · exact .inl ⟨s, m', run h2 (by simp), h3⟩
  · refine .inr ?_
    unfold S.noExit
    cases he : e σ with
    | mk o σ1 =>
    rw [he] at h
    cases o with
    | ok c => obtain ⟨s, m', h2, rfl, h3⟩ := h; exact ⟨.normal, m', run h2 (by simp), rfl, h3⟩
    | jump j =>
      cases j with
      | exit => trivial
      | brk | cont | ret | bad =>
        intro hj
        obtain ⟨m', h2, h3⟩ := h hj
        exact ⟨m', run h2 (by simp [resOf]), h3⟩
    | err e => obtain ⟨m', h2⟩ := h; exact ⟨m', run h2 (by simp)⟩
    | abort => obtain ⟨s, m', h2⟩ := h; exact ⟨s, m', run h2 (by simp)⟩
    | stuck => trivial
    | timeout => exact fun n hn => bind_timeout1 (h n hn)

/-- A chain that may be left early. -/
theorem Sim.close {c : Code} {e : S (Value × SEnv)} {σ : State} {ρ : SEnv} {P : Value × SEnv → State → VM → Prop}
    (h : Sim N R (exec w f ups c) m (e σ) (Norm P) J)
    (hx : ∀ ρ' σ' m', J (.exit ρ') σ' m' → ρ'.length = ρ.length → P (.null, ρ) σ' m') :
    Sim N R (exec w f ups (.chain c)) m (S.close ρ e σ) (Norm P) J := by
  have run : ∀ {r m'}, Runs w f ups c m r m' → r ≠ .done .exit → Runs w f ups (.chain c) m r m' :=
    fun hr hn => runs_chain.2 (.inl ⟨hr, hn⟩)
  rcases h with ⟨s, m', h2, h3⟩ | h
  · exact .inl ⟨s, m', run h2 (by simp), h3⟩
  · refine .inr ?_
    unfold S.close
    cases he : e σ with
    | mk o σ1 =>
    rw [he] at h
    cases o with
    | ok c => obtain ⟨s, m', h2, rfl, h3⟩ := h; exact ⟨.normal, m', run h2 (by simp), rfl, h3⟩
    | jump j =>
      cases j with
      | exit ρ' =>
        obtain ⟨m', h2, h3⟩ := h trivial
        by_cases hl : ρ'.length = ρ.length
        · simp only [if_pos hl]
          exact ⟨.normal, m', runs_chain.2 (.inr ⟨rfl, h2⟩), rfl, hx _ _ _ h3 hl⟩
        · simp only [if_neg hl]
      | brk | cont | ret | bad =>
        intro hj
        obtain ⟨m', h2, h3⟩ := h hj
        exact ⟨m', run h2 (by simp [resOf]), h3⟩
    | err e => obtain ⟨m', h2⟩ := h; exact ⟨m', run h2 (by simp)⟩
    | abort => obtain ⟨s, m', h2⟩ := h; exact ⟨s, m', run h2 (by simp)⟩
    | stuck => trivial
    | timeout => exact fun n hn => bind_timeout1 (h n hn)

/-! ## Loops -/

/-- A round of a loop ends. -/
def Round {β : Type} (I : β → State → VM → Prop) (D : State → VM → Prop) (a : Option β) (σ : State) (s : Sig) (m : VM) :
    Prop :=
  match a with
  | some a => s = .normal ∧ I a σ m
  | none => s = .brk ∧ D σ m

/-- A round of a loop is left early. -/
def RoundJ {β : Type} (ρ : SEnv) (next : Option β) (I : β → State → VM → Prop) (D : State → VM → Prop)
    (J : Jump → State → VM → Prop) (j : Jump) (σ : State) (m : VM) : Prop :=
  match j with
  | .brk ρ' => Src.captured σ ρ ρ' = false → D σ m
  | .cont ρ' => ∀ a, next = some a → Src.captured σ ρ ρ' = false → I a σ m
  | .ret ρ' v => J (.ret ρ' v) σ m
  | .bad e => J (.bad e) σ m
  | .exit _ => True

theorem Sim.loop {c : Code} {ρ : SEnv} {next : Option β} {body : β → S (Option β)} {I : β → State → VM → Prop}
    {D : State → VM → Prop}
    (hb : ∀ a σ m, I a σ m → Sim N R (exec w f ups c) m (body a σ) (Round I D) (RoundJ ρ next I D J))
    {a : β} {σ : State} (hi : I a σ m) :
    Sim N R (exec w f ups (.loop c)) m (Src.iter ρ next body N a σ) (Norm fun _ => D) J := by
  -- the same for any number of rounds
  have key : ∀ (j : Nat) (a : β) (σ : State) (m : VM), I a σ m →
      (∃ s m', Rounds (Runs w f ups c) m (.panic s) m' ∧ maxStack ≤ m'.ptr) ∨
        match Src.iter ρ next body j a σ with
        | (.ok (), σ) => ∃ m', Rounds (Runs w f ups c) m (.done .normal) m' ∧ D σ m'
        | (.jump j, σ) => Jumps R j → ∃ m', Rounds (Runs w f ups c) m (resOf j) m' ∧ J j σ m'
        | (.err e, _) => ∃ m', Rounds (Runs w f ups c) m (.err e) m'
        | (.abort, _) => ∃ s m', Rounds (Runs w f ups c) m (.panic s) m'
        | (.stuck, _) => True
        | (.timeout, _) => ∀ g n, g ≤ j → n < N → (iterate (exec w f ups c) g n m).1 = .timeout := by
    intro j
    induction j with
    | zero =>
      intro a σ m _
      refine .inr ?_
      intro g n hg _
      cases g with
      | zero => rfl
      | succ g => omega
    | succ j ih =>
      intro a σ m hi
      have again : ∀ {s : Sig} {a' : β} {σ1 : State} {m1 : VM}, s = .normal ∨ s = .cont → Runs w f ups c m (.done s) m1 →
          I a' σ1 m1 →
          (∃ s m', Rounds (Runs w f ups c) m (.panic s) m' ∧ maxStack ≤ m'.ptr) ∨
            match Src.iter ρ next body j a' σ1 with
            | (.ok (), σ) => ∃ m', Rounds (Runs w f ups c) m (.done .normal) m' ∧ D σ m'
            | (.jump j, σ) => Jumps R j → ∃ m', Rounds (Runs w f ups c) m (resOf j) m' ∧ J j σ m'
            | (.err e, _) => ∃ m', Rounds (Runs w f ups c) m (.err e) m'
            | (.abort, _) => ∃ s m', Rounds (Runs w f ups c) m (.panic s) m'
            | (.stuck, _) => True
            | (.timeout, _) => ∀ g n, g ≤ j + 1 → n < N → (iterate (exec w f ups c) g n m).1 = .timeout := by
        intro s a' σ1 m1 hs hr hi'
        rcases ih a' σ1 m1 hi' with ⟨p, m', h1, h2⟩ | h
        · exact .inl ⟨p, m', .next hs hr h1, h2⟩
        · refine .inr ?_
          revert h
          cases Src.iter ρ next body j a' σ1 with
          | mk o σ2 =>
          cases o with
          | ok u => rintro ⟨m', h1, h2⟩; exact ⟨m', .next hs hr h1, h2⟩
          | jump q =>
            intro h hj
            obtain ⟨m', h1, h2⟩ := h hj
            exact ⟨m', .next hs hr h1, h2⟩
          | err e => rintro ⟨m', h1⟩; exact ⟨m', .next hs hr h1⟩
          | abort => rintro ⟨p, m', h1⟩; exact ⟨p, m', .next hs hr h1⟩
          | stuck => exact fun _ => trivial
          | timeout =>
            intro h g n hg hn
            cases g with
            | zero => rfl
            | succ g =>
              rcases exec_or_done hr n with ht | ⟨k, hk, he⟩
              · exact bind_timeout1 ht
              · refine (congrArg Prod.fst (bind_ok he)).trans ?_
                rcases hs with rfl | rfl
                · cases k with
                  | zero => rfl
                  | succ k => exact h g k (by omega) (by omega)
                · exact h g k (by omega) (by omega)
      rcases hb a σ m hi with ⟨s, m', h1, h2⟩ | h
      · exact .inl ⟨s, m', .leave (by simp) h1, h2⟩
      · unfold Src.iter
        cases hx : body a σ with
        | mk o σ1 =>
        rw [hx] at h
        cases o with
        | ok r =>
          obtain ⟨s, m1, h1, h2⟩ := h
          cases r with
          | none =>
            obtain ⟨rfl, h2⟩ := h2
            exact .inr ⟨m1, .brk h1, h2⟩
          | some a' =>
            obtain ⟨rfl, h2⟩ := h2
            exact again (.inl rfl) h1 h2
        | jump q =>
          cases q with
          | brk ρ' =>
            obtain ⟨m1, h1, h2⟩ := h trivial
            by_cases hc : Src.captured σ1 ρ ρ' = true
            · simp only [if_pos hc]
              exact .inr trivial
            · simp only [if_neg hc]
              exact .inr ⟨m1, .brk h1, h2 (by simpa using hc)⟩
          | cont ρ' =>
            obtain ⟨m1, h1, h2⟩ := h trivial
            simp only
            cases hn : next with
            | none => exact .inr trivial
            | some a' =>
              by_cases hc : Src.captured σ1 ρ ρ' = true
              · simp only [if_pos hc]
                exact .inr trivial
              · simp only [if_neg hc]
                have := again (.inr rfl) h1 (h2 a' hn (by simpa using hc))
                rw [hn] at this
                exact this
          | ret | bad =>
            refine .inr fun hj => ?_
            obtain ⟨m1, h1, h2⟩ := h hj
            exact ⟨m1, .leave (by simp [resOf]) h1, h2⟩
          | exit => exact .inr trivial
        | err e => obtain ⟨m1, h1⟩ := h; exact .inr ⟨m1, .leave (by simp) h1⟩
        | abort => obtain ⟨s, m1, h1⟩ := h; exact .inr ⟨s, m1, .leave (by simp) h1⟩
        | stuck => exact .inr trivial
        | timeout =>
          refine .inr fun g n _ hn => ?_
          cases g with
          | zero => rfl
          | succ g => exact bind_timeout1 (h n hn)
  rcases key N a σ m hi with ⟨s, m', h1, h2⟩ | h
  · exact .inl ⟨s, m', runs_loop.2 h1, h2⟩
  · refine .inr ?_
    revert h
    cases Src.iter ρ next body N a σ with
    | mk o σ1 =>
    cases o with
    | ok u => rintro ⟨m', h1, h2⟩; exact ⟨.normal, m', runs_loop.2 h1, rfl, h2⟩
    | jump q =>
      intro h hj
      obtain ⟨m', h1, h2⟩ := h hj
      exact ⟨m', runs_loop.2 h1, h2⟩
    | err e => rintro ⟨m', h1⟩; exact ⟨m', runs_loop.2 h1⟩
    | abort => rintro ⟨p, m', h1⟩; exact ⟨p, m', runs_loop.2 h1⟩
    | stuck => exact fun _ => trivial
    | timeout => exact fun h n hn => h (n + 1) n (by omega) hn

end

end Dice.Sim
