import Verif.Mono

/-!
# Big steps

The runs of structured code without step budgets: `Runs w f ups c m r m'` says that running the code `c` from
the machine `m` ends with `r` and the machine `m'`.  Code that runs forever has no such `r`.
-/

namespace Dice

/-- How a run ends. -/
inductive Res where
  /-- without error -/
  | done (s : Sig)
  | err (e : RtErr)
  | panic (msg : String)
  deriving DecidableEq

/-- The end of a run that is not out of steps. -/
def Outcome.res : Outcome (Sig × Nat) → Option Res
  | .ok (s, _) => some (.done s)
  | .err e => some (.err e)
  | .panic s => some (.panic s)
  | .timeout => none

/-- The run of `x` from `m` ends with `r` and `m'`, given enough steps. -/
def Ends (x : X) (m : VM) (r : Res) (m' : VM) : Prop := ∃ n, (x n m).1.res = some r ∧ (x n m).2 = m'

theorem Ends.det {x : X} (hx : Later x) {m m1 m2 : VM} {r1 r2 : Res} (h1 : Ends x m r1 m1) (h2 : Ends x m r2 m2) :
    r1 = r2 ∧ m1 = m2 := by
  have key : ∀ {n d : Nat} {ra rb : Res} {ma mb : VM}, (x n m).1.res = some ra → (x n m).2 = ma →
      (x (n + d) m).1.res = some rb → (x (n + d) m).2 = mb → ra = rb ∧ ma = mb := by
    intro n d ra rb ma mb ha ha' hb hb'
    rcases hx n d m with h | h
    · rw [h] at ha; cases ha
    · rw [h] at hb hb'
      generalize x n m = q at ha ha' hb hb'
      obtain ⟨o, mq⟩ := q
      refine ⟨?_, ha'.symm.trans hb'⟩
      cases o with
      | ok a => obtain ⟨s, k⟩ := a; cases ha; cases hb; rfl
      | err e => cases ha; cases hb; rfl
      | panic s => cases ha; cases hb; rfl
      | timeout => cases ha
  obtain ⟨n1, a1, b1⟩ := h1
  obtain ⟨n2, a2, b2⟩ := h2
  rcases Nat.le_total n1 n2 with h | h
  · obtain ⟨d, rfl⟩ := Nat.le.dest h
    exact key a1 b1 a2 b2
  · obtain ⟨d, rfl⟩ := Nat.le.dest h
    obtain ⟨e1, e2⟩ := key a2 b2 a1 b1
    exact ⟨e1.symm, e2.symm⟩

/-- First `A`, then, if it ends normally, `B`. -/
def Then (A B : VM → Res → VM → Prop) (m : VM) (r : Res) (m' : VM) : Prop :=
  (A m r m' ∧ r ≠ .done .normal) ∨ ∃ m1, A m (.done .normal) m1 ∧ B m1 r m'

theorem Then.congr {A A' B B' : VM → Res → VM → Prop} (hA : ∀ m r m', A m r m' ↔ A' m r m')
    (hB : ∀ m r m', B m r m' ↔ B' m r m') (m : VM) (r : Res) (m' : VM) : Then A B m r m' ↔ Then A' B' m r m' := by
  unfold Then; simp only [hA, hB]

/-- What a computation has done, with the budget that it left. -/
theorem Ends.enough {x : X} (hx : Later x) {m m' : VM} {s : Sig} (h : Ends x m (.done s) m') :
    ∃ n k, x n m = (.ok (s, k), m') ∧ ∀ d, x (n + d) m = (.ok (s, k + d), m') := by
  obtain ⟨n, h1, h2⟩ := h
  cases hr : x n m with
  | mk o m1 =>
    rw [hr] at h1 h2
    cases o with
    | ok a =>
      obtain ⟨s', k⟩ := a
      cases h1
      cases h2
      refine ⟨n, k, hr, fun d => ?_⟩
      rcases hx n d m with h | h
      · rw [hr] at h; cases h
      · rw [h, hr]; rfl
    | _ => cases h1

/-- More steps do not change a finished run. -/
theorem Ends.more {x : X} (hx : Later x) {m m' : VM} {r : Res} {n : Nat} (h1 : (x n m).1.res = some r)
    (h2 : (x n m).2 = m') (d : Nat) : (x (n + d) m).1.res = some r ∧ (x (n + d) m).2 = m' := by
  rcases hx n d m with h | h
  · rw [h] at h1; cases h1
  · rw [h]
    refine ⟨?_, h2⟩
    rw [← h1]
    cases (x n m).1 with
    | ok a => rfl
    | _ => rfl

theorem ends_bind {x : X} {k : Sig × Nat → V (Sig × Nat)} (hx : Later x) (hk : ∀ s, Later fun n => k (s, n))
    {m m' : VM} {r : Res} : Ends (fun n => x n >>= k) m r m' ↔
      (Ends x m r m' ∧ ∀ s, r ≠ .done s) ∨ ∃ s m1, Ends x m (.done s) m1 ∧ Ends (fun n => k (s, n)) m1 r m' := by
  constructor
  · rintro ⟨n, h1, h2⟩
    change (V.bind (x n) k m).1.res = _ at h1
    change (V.bind (x n) k m).2 = _ at h2
    unfold V.bind at h1 h2
    cases hr : x n m with
    | mk o m1 =>
      rw [hr] at h1 h2
      have he : ∀ r', o.res = some r' → Ends x m r' m1 := fun r' h => ⟨n, by rw [hr]; exact h, by rw [hr]⟩
      cases o with
      | ok a => exact .inr ⟨a.1, m1, he _ rfl, a.2, h1, h2⟩
      | err e => cases h1; cases h2; exact .inl ⟨he _ rfl, fun s h => by cases h⟩
      | panic e => cases h1; cases h2; exact .inl ⟨he _ rfl, fun s h => by cases h⟩
      | timeout => cases h1
  · rintro (⟨⟨n, h1, h2⟩, hne⟩ | ⟨s, m1, h, n2, h3, h4⟩)
    · refine ⟨n, ?_⟩
      show (V.bind (x n) k m).1.res = _ ∧ (V.bind (x n) k m).2 = _
      unfold V.bind
      cases hr : x n m with
      | mk o m1 =>
        rw [hr] at h1 h2
        cases o with
        | ok a => cases h1; exact absurd rfl (hne _)
        | err e => exact ⟨h1, h2⟩
        | panic e => exact ⟨h1, h2⟩
        | timeout => cases h1
    · obtain ⟨n, k1, hn, hd⟩ := h.enough hx
      -- with `n + n2` steps there are `k1 + n2` left for the continuation
      refine ⟨n + n2, ?_⟩
      show (V.bind (x (n + n2)) k m).1.res = _ ∧ (V.bind (x (n + n2)) k m).2 = _
      unfold V.bind
      rw [hd n2]
      have := Ends.more (hk s) h3 h4 k1
      rw [Nat.add_comm n2 k1] at this
      exact this

theorem ends_tick {x : X} {m m' : VM} {r : Res} : Ends (tick x) m r m' ↔ Ends x m r m' := by
  constructor
  · rintro ⟨n, h1, h2⟩
    cases n with
    | zero => cases h1
    | succ n => exact ⟨n, h1, h2⟩
  · rintro ⟨n, h1, h2⟩
    exact ⟨n + 1, h1, h2⟩

theorem ends_pure {s : Sig} {m m' : VM} {r : Res} : Ends (fun n => pure (s, n)) m r m' ↔ r = .done s ∧ m' = m := by
  constructor
  · rintro ⟨n, h1, h2⟩; cases h1; exact ⟨rfl, h2.symm⟩
  · rintro ⟨rfl, rfl⟩; exact ⟨0, rfl, rfl⟩

/-- How a computation with a value ends. -/
def Outcome.resV {α : Type} : Outcome α → Option (Res ⊕ α)
  | .ok a => some (.inr a)
  | .err e => some (.inl (.err e))
  | .panic s => some (.inl (.panic s))
  | .timeout => none

/-- A computation that does not depend on the budget, followed by a continuation. -/
theorem ends_bindV {α : Type} {x : V α} {k : α → X} {m m' : VM} {r : Res} :
    Ends (fun n => x >>= fun a => k a n) m r m' ↔
      ((x m).1.resV = some (.inl r) ∧ (x m).2 = m') ∨ ∃ a m1, x m = (.ok a, m1) ∧ Ends (k a) m1 r m' := by
  have he : ∀ n, (x >>= fun a => k a n) m = match x m with
      | (.ok a, m) => k a n m | (.err e, m) => (.err e, m) | (.panic s, m) => (.panic s, m)
      | (.timeout, m) => (.timeout, m) := fun n => rfl
  unfold Ends
  simp only [he]
  cases hr : x m with
  | mk o m1 =>
    cases o with
    | ok a =>
      constructor
      · rintro ⟨n, h⟩; exact .inr ⟨a, m1, rfl, n, h⟩
      · rintro (⟨h, -⟩ | ⟨a', m1', h, n, h'⟩)
        · cases h
        · cases h; exact ⟨n, h'⟩
    | err e =>
      constructor
      · rintro ⟨n, h1, h2⟩; cases h1; exact .inl ⟨rfl, h2⟩
      · rintro (⟨h, h2⟩ | ⟨a', m1', h, n, h'⟩)
        · cases h; exact ⟨0, rfl, h2⟩
        · cases h
    | panic e =>
      constructor
      · rintro ⟨n, h1, h2⟩; cases h1; exact .inl ⟨rfl, h2⟩
      · rintro (⟨h, h2⟩ | ⟨a', m1', h, n, h'⟩)
        · cases h; exact ⟨0, rfl, h2⟩
        · cases h
    | timeout =>
      constructor
      · rintro ⟨n, h1, h2⟩; cases h1
      · rintro (⟨h, h2⟩ | ⟨a', m1', h, n, h'⟩)
        · cases h
        · cases h

/-! ## Structured code -/

/-- Running the code `c` from `m` ends with `r` and `m'`. -/
def Runs (w : World) (f : Frame) (ups : Option (List Nat)) (c : Code) : VM → Res → VM → Prop :=
  Ends (exec w f ups c)

section
variable {w : World} {f : Frame} {ups : Option (List Nat)} {m m' : VM} {r : Res}

/-- A run has only one end. -/
theorem Runs.det {c : Code} {m1 m2 : VM} {r1 r2 : Res} (h1 : Runs w f ups c m r1 m1) (h2 : Runs w f ups c m r2 m2) :
    r1 = r2 ∧ m1 = m2 := Ends.det (exec_later w f ups c) h1 h2

theorem runs_nop : Runs w f ups .nop m r m' ↔ r = .done .normal ∧ m' = m := ends_pure

theorem runs_seq {a b : Code} : Runs w f ups (.seq a b) m r m' ↔ Then (Runs w f ups a) (Runs w f ups b) m r m' := by
  unfold Runs Then
  show Ends (fun n => exec w f ups a n >>= thenRun (exec w f ups b)) m r m' ↔ _
  rw [ends_bind (exec_later w f ups a) (exec_later w f ups b).thenRun]
  constructor
  · rintro (⟨h, hne⟩ | ⟨s, m1, h1, h2⟩)
    · exact .inl ⟨h, hne _⟩
    · cases s with
      | normal => exact .inr ⟨m1, h1, h2⟩
      | _ =>
        obtain ⟨rfl, rfl⟩ := ends_pure.1 h2
        exact .inl ⟨h1, by simp⟩
  · rintro (⟨h, hne⟩ | ⟨m1, h1, h2⟩)
    · cases r with
      | done s =>
        refine .inr ⟨s, m', h, ?_⟩
        cases s with
        | normal => exact absurd rfl hne
        | _ => exact ends_pure.2 ⟨rfl, rfl⟩
      | _ => exact .inl ⟨h, fun s h => by cases h⟩
    · exact .inr ⟨.normal, m1, h1, h2⟩

theorem runs_jump {s : Sig} : Ends (jumpSig s) m r m' ↔ r = .done s ∧ m' = m := ends_tick.trans ends_pure

theorem runs_brk : Runs w f ups .brk m r m' ↔ r = .done .brk ∧ m' = m := runs_jump
theorem runs_cont : Runs w f ups .cont m r m' ↔ r = .done .cont ∧ m' = m := runs_jump

/-- Popping the condition of a jump ends with `r`, or gives `b`. -/
theorem ends_popBool {k : Bool → X} :
    Ends (fun n => popBool >>= fun b => k b n) m r m' ↔
      ((popBool m).1.resV = some (.inl r) ∧ (popBool m).2 = m') ∨
        ∃ b m1, popBool m = (.ok b, m1) ∧ Ends (k b) m1 r m' := ends_bindV

theorem runs_skipIf {b : Bool} {c : Code} : Runs w f ups (.skipIf b c) m r m' ↔
    ((popBool m).1.resV = some (.inl r) ∧ (popBool m).2 = m') ∨
      ∃ x m1, popBool m = (.ok x, m1) ∧
        if x = b then r = .done .normal ∧ m' = m1 else Runs w f ups c m1 r m' := by
  refine ends_tick.trans (ends_popBool.trans ?_)
  refine or_congr Iff.rfl (exists_congr fun x => exists_congr fun m1 => and_congr_right fun _ => ?_)
  by_cases h : x = b
  · simp only [if_pos h]; exact ends_pure
  · simp only [if_neg h]; exact Iff.rfl

theorem runs_cond {b : Bool} {s : Sig} : Ends (condSig b s) m r m' ↔
    ((popBool m).1.resV = some (.inl r) ∧ (popBool m).2 = m') ∨
      ∃ x m1, popBool m = (.ok x, m1) ∧ r = .done (if x = b then s else .normal) ∧ m' = m1 := by
  refine ends_tick.trans (ends_popBool.trans ?_)
  exact or_congr Iff.rfl (exists_congr fun x => exists_congr fun m1 => and_congr_right fun _ => ends_pure)

theorem runs_breakIf {b : Bool} : Runs w f ups (.breakIf b) m r m' ↔
    ((popBool m).1.resV = some (.inl r) ∧ (popBool m).2 = m') ∨
      ∃ x m1, popBool m = (.ok x, m1) ∧ r = .done (if x = b then .brk else .normal) ∧ m' = m1 := runs_cond

theorem runs_exitIf {b : Bool} : Runs w f ups (.exitIf b) m r m' ↔
    ((popBool m).1.resV = some (.inl r) ∧ (popBool m).2 = m') ∨
      ∃ x m1, popBool m = (.ok x, m1) ∧ r = .done (if x = b then .exit else .normal) ∧ m' = m1 := runs_cond

theorem runs_branch {t e : Code} : Runs w f ups (.branch t e) m r m' ↔
    ((popBool m).1.resV = some (.inl r) ∧ (popBool m).2 = m') ∨
      ∃ x m1, popBool m = (.ok x, m1) ∧ if x = true then Runs w f ups t m1 r m' else Runs w f ups e m1 r m' := by
  refine ends_tick.trans (ends_popBool.trans ?_)
  refine or_congr Iff.rfl (exists_congr fun x => exists_congr fun m1 => and_congr_right fun _ => ?_)
  by_cases h : x = true
  · simp only [if_pos h]
    rw [ends_bind (exec_later w f ups t) (k := thenRun (jumpSig .normal)) (Later.thenRun (Later.tick (Later.pure _)))]
    constructor
    · rintro (⟨h, hne⟩ | ⟨s, m2, h1, h2⟩)
      · exact h
      · cases s with
        | normal =>
          obtain ⟨rfl, rfl⟩ := runs_jump.1 h2
          exact h1
        | _ =>
          obtain ⟨rfl, rfl⟩ := ends_pure.1 h2
          exact h1
    · intro h
      cases r with
      | done s =>
        refine .inr ⟨s, m', h, ?_⟩
        cases s with
        | normal => exact runs_jump.2 ⟨rfl, rfl⟩
        | _ => exact ends_pure.2 ⟨rfl, rfl⟩
      | _ => exact .inl ⟨h, fun s h => by cases h⟩
  · simp only [if_neg h]; exact Iff.rfl

theorem runs_chain {c : Code} : Runs w f ups (.chain c) m r m' ↔
    (Runs w f ups c m r m' ∧ r ≠ .done .exit) ∨ (r = .done .normal ∧ Runs w f ups c m (.done .exit) m') := by
  unfold Runs
  show Ends (fun n => exec w f ups c n >>= endChain) m r m' ↔ _
  rw [ends_bind (exec_later w f ups c) (k := endChain) (fun s => by cases s <;> exact Later.pure _)]
  constructor
  · rintro (⟨h, hne⟩ | ⟨s, m1, h1, h2⟩)
    · exact .inl ⟨h, hne _⟩
    · cases s with
      | exit =>
        obtain ⟨rfl, rfl⟩ := ends_pure.1 h2
        exact .inr ⟨rfl, h1⟩
      | _ =>
        obtain ⟨rfl, rfl⟩ := ends_pure.1 h2
        exact .inl ⟨h1, by simp⟩
  · rintro (⟨h, hne⟩ | ⟨rfl, h⟩)
    · cases r with
      | done s =>
        refine .inr ⟨s, m', h, ?_⟩
        cases s with
        | exit => exact absurd rfl hne
        | _ => exact ends_pure.2 ⟨rfl, rfl⟩
      | _ => exact .inl ⟨h, fun s h => by cases h⟩
    · exact .inr ⟨.exit, m', h, ends_pure.2 ⟨rfl, rfl⟩⟩

/-- Repeating `A`: a normal end or a `continue` starts the next round, a `break` ends the loop normally,
everything else ends it as it is. -/
inductive Rounds (A : VM → Res → VM → Prop) : VM → Res → VM → Prop where
  | next {m m1 m' : VM} {s : Sig} {r : Res} (hs : s = .normal ∨ s = .cont) (h : A m (.done s) m1) (hr : Rounds A m1 r m') :
      Rounds A m r m'
  | brk {m m' : VM} (h : A m (.done .brk) m') : Rounds A m (.done .normal) m'
  | leave {m m' : VM} {r : Res} (hr : r ≠ .done .normal ∧ r ≠ .done .cont ∧ r ≠ .done .brk) (h : A m r m') : Rounds A m r m'

theorem iterate_rounds {body : X} (g n : Nat) {m m' : VM} {r : Res} (h1 : (iterate body g n m).1.res = some r)
    (h2 : (iterate body g n m).2 = m') : Rounds (Ends body) m r m' := by
  induction g generalizing n m with
  | zero => cases h1
  | succ g ih =>
    change (V.bind (body n) _ m).1.res = _ at h1
    change (V.bind (body n) _ m).2 = _ at h2
    unfold V.bind at h1 h2
    cases hr : body n m with
    | mk o m1 =>
      have he : ∀ r', o.res = some r' → Ends body m r' m1 := fun r' h => ⟨n, by rw [hr]; exact h, by rw [hr]⟩
      rw [hr] at h1 h2
      cases o with
      | ok a =>
        obtain ⟨s, k⟩ := a
        cases s with
        | normal =>
          cases k with
          | zero => cases h1
          | succ k => exact .next (.inl rfl) (he _ rfl) (ih k h1 h2)
        | cont => exact .next (.inr rfl) (he _ rfl) (ih k h1 h2)
        | brk => cases h1; cases h2; exact .brk (he _ rfl)
        | exit => cases h1; cases h2; exact .leave (by simp) (he _ rfl)
        | stop => cases h1; cases h2; exact .leave (by simp) (he _ rfl)
      | err e => cases h1; cases h2; exact .leave (by simp) (he _ rfl)
      | panic e => cases h1; cases h2; exact .leave (by simp) (he _ rfl)
      | timeout => cases h1

theorem rounds_iterate {body : X} (hb : Later body) {m m' : VM} {r : Res} (h : Rounds (Ends body) m r m') :
    ∃ g n, (iterate body g n m).1.res = some r ∧ (iterate body g n m).2 = m' := by
  induction h with
  | @next m m1 m' s r hs h hr ih =>
    obtain ⟨g, n, h1, h2⟩ := ih
    obtain ⟨n0, k, hn, hd⟩ := h.enough hb
    refine ⟨g + 1, n0 + (n + 1), ?_⟩
    show (V.bind (body (n0 + (n + 1))) _ m).1.res = _ ∧ (V.bind (body (n0 + (n + 1))) _ m).2 = _
    unfold V.bind
    rw [hd (n + 1)]
    rcases hs with rfl | rfl
    · have := Ends.more (Later.iterate hb g) h1 h2 k
      rw [Nat.add_comm n k] at this
      exact this
    · have := Ends.more (Later.iterate hb g) h1 h2 (k + 1)
      rw [show n + (k + 1) = k + (n + 1) by omega] at this
      exact this
  | brk h =>
    obtain ⟨n0, k, hn, hd⟩ := h.enough hb
    refine ⟨1, n0, ?_⟩
    show (V.bind (body n0) _ _).1.res = _ ∧ (V.bind (body n0) _ _).2 = _
    unfold V.bind
    rw [hn]
    exact ⟨rfl, rfl⟩
  | @leave m m' r hr h =>
    obtain ⟨n0, h1, h2⟩ := h
    refine ⟨1, n0, ?_⟩
    show (V.bind (body n0) _ _).1.res = _ ∧ (V.bind (body n0) _ _).2 = _
    unfold V.bind
    cases hx : body n0 m with
    | mk o m1 =>
      rw [hx] at h1 h2
      cases o with
      | ok a =>
        obtain ⟨s, k⟩ := a
        cases h1
        cases h2
        cases s with
        | normal => exact absurd rfl hr.1
        | cont => exact absurd rfl hr.2.1
        | brk => exact absurd rfl hr.2.2
        | _ => exact ⟨rfl, rfl⟩
      | err e => exact ⟨h1, h2⟩
      | panic e => exact ⟨h1, h2⟩
      | timeout => cases h1

theorem runs_loop {c : Code} : Runs w f ups (.loop c) m r m' ↔ Rounds (Runs w f ups c) m r m' := by
  constructor
  · rintro ⟨n, h1, h2⟩
    exact iterate_rounds _ _ h1 h2
  · intro h
    obtain ⟨g, n, h1, h2⟩ := rounds_iterate (exec_later w f ups c) h
    have hl := exec_later w f ups c
    -- enough steps for both bounds
    have e1 : (iterate (exec w f ups c) (g + n + 1) n m).1.res = some r ∧ (iterate (exec w f ups c) (g + n + 1) n m).2 = m' := by
      rcases iterate_le (body := exec w f ups c) g (n + 1) n m with h | h
      · rw [h] at h1; cases h1
      · rw [Nat.add_assoc, ← h]; exact ⟨h1, h2⟩
    have := Ends.more (Later.iterate hl (g + n + 1)) e1.1 e1.2 g
    refine ⟨g + n, ?_⟩
    show (iterate (exec w f ups c) (g + n + 1) (g + n) m).1.res = _ ∧ _
    rw [Nat.add_comm n g] at this
    exact this

/-- One instruction. -/
theorem runs_instr {i : Instr} : Runs w f ups (.instr i) m r m' ↔
    ∃ n, ((istep w n f ups i m).1.resV = some (.inl r) ∧ (istep w n f ups i m).2 = m') ∨
      ∃ s, istep w n f ups i m = (.ok s, m') ∧ r = .done s := by
  refine ends_tick.trans ?_
  unfold Ends
  refine exists_congr fun n => ?_
  have he : (istep w n f ups i >>= fun s => pure (s, n)) m = match istep w n f ups i m with
      | (.ok a, m) => (.ok (a, n), m) | (.err e, m) => (.err e, m) | (.panic s, m) => (.panic s, m)
      | (.timeout, m) => (.timeout, m) := by
    show V.bind _ _ _ = _
    unfold V.bind
    cases istep w n f ups i m with
    | mk o m1 => cases o <;> rfl
  dsimp only
  rw [he]
  cases istep w n f ups i m with
  | mk o m1 =>
    cases o with
    | ok s =>
      constructor
      · rintro ⟨h1, rfl⟩; cases h1; exact .inr ⟨s, rfl, rfl⟩
      · rintro (⟨h, -⟩ | ⟨s', h, rfl⟩)
        · cases h
        · cases h; exact ⟨rfl, rfl⟩
    | err e =>
      constructor
      · rintro ⟨h1, rfl⟩; cases h1; exact .inl ⟨rfl, rfl⟩
      · rintro (⟨h, rfl⟩ | ⟨s', h, rfl⟩)
        · cases h; exact ⟨rfl, rfl⟩
        · cases h
    | panic e =>
      constructor
      · rintro ⟨h1, rfl⟩; cases h1; exact .inl ⟨rfl, rfl⟩
      · rintro (⟨h, rfl⟩ | ⟨s', h, rfl⟩)
        · cases h; exact ⟨rfl, rfl⟩
        · cases h
    | timeout =>
      constructor
      · rintro ⟨h1, rfl⟩; cases h1
      · rintro (⟨h, rfl⟩ | ⟨s', h, rfl⟩)
        · cases h
        · cases h

end

end Dice
