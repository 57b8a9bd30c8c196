import Verif.Struct

/-!
# The step budget does not matter

A run that ends within a step budget ends in the same way with every larger budget.
-/

namespace Dice

/-- Whenever `x` does not run out of steps, `y` does the same. -/
def Le {α : Type} (x y : V α) : Prop := ∀ m, (x m).1 = .timeout ∨ x m = y m

section
variable {α β : Type}

theorem Le.refl (x : V α) : Le x x := fun _ => .inr rfl

theorem Le.trans {x y z : V α} (h1 : Le x y) (h2 : Le y z) : Le x z := fun m => by
  rcases h1 m with h | h
  · exact .inl h
  · rw [h]; exact h2 m

theorem Le.timeout (y : V α) : Le V.timeout y := fun _ => .inl rfl

theorem Le.bind {x y : V α} {f g : α → V β} (h : Le x y) (hf : ∀ a, Le (f a) (g a)) : Le (x >>= f) (y >>= g) := by
  intro m
  show (V.bind x f m).1 = _ ∨ V.bind x f m = V.bind y g m
  unfold V.bind
  rcases h m with h | h
  · generalize x m = r at h
    obtain ⟨o, m1⟩ := r
    cases h
    exact .inl rfl
  · rw [← h]
    generalize x m = r
    obtain ⟨o, m1⟩ := r
    cases o with
    | ok a => exact hf a m1
    | _ => exact .inr rfl

theorem Le.bind_right (x : V α) {f g : α → V β} (hf : ∀ a, Le (f a) (g a)) : Le (x >>= f) (x >>= g) :=
  .bind (.refl x) hf

end

/-- All functions of `k` are below those of `k'`. -/
structure CallsLe (k k' : Calls) : Prop where
  callFn : ∀ argc, Le (k.callFn argc) (k'.callFn argc)
  callCtor : ∀ argc cls obj, Le (k.callCtor argc cls obj) (k'.callCtor argc cls obj)
  runModule : ∀ bc e, Le (k.runModule bc e) (k'.runModule bc e)

theorem callBinaryOp_le (w : World) {c c' : Nat → V Unit} (h : ∀ n, Le (c n) (c' n)) (name : String) (rhs : Value) :
    Le (callBinaryOp w c name rhs) (callBinaryOp w c' name rhs) := by
  unfold callBinaryOp
  refine .bind_right _ fun lhs => .bind_right _ fun method => ?_
  split
  · exact .bind_right _ fun _ => .bind_right _ fun _ => .bind_right _ fun _ => .bind_right _ fun _ => h 2
  · exact .bind_right _ fun _ => .bind_right _ fun _ => h 1

theorem binaryOp_le (w : World) {c c' : Nat → V Unit} (h : ∀ n, Le (c n) (c' n)) (o : Opcode) :
    Le (binaryOp w c o) (binaryOp w c' o) := by
  unfold binaryOp
  refine .bind_right _ fun rhs => .bind_right _ fun lhs => ?_
  cases binDecide w o lhs rhs with
  | call name => exact callBinaryOp_le w h name rhs
  | _ => exact .refl _

theorem moduleValue_le (w : World) {k k' : Calls} (h : CallsLe k k') (name : String) :
    Le (moduleValue w k name) (moduleValue w k' name) := by
  intro m
  unfold moduleValue
  cases m.modules.get name with
  | some v => exact .inr rfl
  | none =>
    dsimp only
    cases w.loader name with
    | error e => exact .inr rfl
    | ok bc => exact h.runModule bc _ _

theorem step_le (w : World) {k k' : Calls} (h : CallsLe k k') (bc : Bytecode) (f : Frame) (ups : Option (List Nat))
    (o : Opcode) (pos : Nat) : Le (step w k bc f ups o pos) (step w k' bc f ups o pos) := by
  cases o
  case call => exact .bind_right _ fun n => .bind (h.callFn n) fun _ => .refl _
  case callSuper =>
    exact .bind_right _ fun n => .bind_right _ fun c => .bind_right _ fun cls => .bind_right _ fun r =>
      .bind (h.callCtor n cls r) fun _ => .refl _
  case loadModule =>
    exact .bind_right _ fun name => .bind (.bind (moduleValue_le w h name) fun _ => .refl _) fun _ => .refl _
  case multiply | divide | remainder | add | subtract | greaterThan | greaterThanOrEqual | lessThan | lessThanOrEqual
    | equal | notEqual | rangeInclusive | rangeExclusive => exact .bind (binaryOp_le w h.callFn _) fun _ => .refl _
  all_goals exact .refl _

theorem calls_le_succ (w : World) (n : Nat) : CallsLe (callsAt w n) (callsAt w (n + 1)) := by
  have key : ∀ n, CallsLe (callsAt w n) (callsAt w (n + 1)) ∧
      (∀ bc f ups pos, Le (loop w n bc f ups pos) (loop w (n + 1) bc f ups pos)) ∧
      (∀ bc f ups, Le (execute w n bc f ups) (execute w (n + 1) bc f ups)) ∧
      (∀ argc r bc ups, Le (callScript w n argc r bc ups) (callScript w (n + 1) argc r bc ups)) := by
    intro n
    induction n with
    | zero =>
      refine ⟨⟨fun argc => ?_, fun argc cls obj => ?_, fun bc e => ?_⟩, fun bc f ups pos => ?_, fun bc f ups => ?_,
        fun argc r bc ups => ?_⟩
      · show Le (callFn w 0 argc) _; rw [callFn]; exact .timeout _
      · show Le (callCtor w 0 argc cls obj) _; rw [callCtor]; exact .timeout _
      · show Le (runModule w 0 bc e) _; rw [runModule]; exact .timeout _
      · rw [loop]; exact .timeout _
      · rw [execute]; exact .timeout _
      · rw [callScript]; exact .timeout _
    | succ n ih =>
      obtain ⟨hc, hl, he, hs⟩ := ih
      refine ⟨⟨fun argc => ?_, fun argc cls obj => ?_, fun bc e => ?_⟩, fun bc f ups pos => ?_, fun bc f ups => ?_,
        fun argc r bc ups => ?_⟩
      · show Le (callFn w (n + 1) argc) (callFn w (n + 1 + 1) argc)
        rw [callFn, callFn]
        refine .bind_right _ fun t => .bind ?_ fun _ => .refl _
        obtain ⟨v, r⟩ := callTarget t
        cases v with
        | fnClosure bc a b us => exact hs argc r bc (some us)
        | fnScript bc a b => exact hs argc r bc none
        | cls c => exact .bind_right _ fun o => hc.callCtor argc c o
        | _ => exact .refl _
      · show Le (callCtor w (n + 1) argc cls obj) (callCtor w (n + 1 + 1) argc cls obj)
        rw [callCtor, callCtor]
        refine .bind_right _ fun m => .bind ?_ fun _ => .refl _
        split
        · exact .bind_right _ fun _ => .bind (hc.callFn argc) fun _ => .refl _
        · exact .refl _
      · show Le (runModule w (n + 1) bc e) (runModule w (n + 1 + 1) bc e)
        rw [runModule, runModule]
        exact .bind_right _ fun f => .bind_right _ fun _ => .bind (he bc f none) fun _ => .refl _
      · rw [loop, loop]
        refine .bind_right _ fun o => ?_
        cases o with
        | none => exact .refl _
        | some o =>
          refine .bind (step_le w hc bc f ups o (pos + 1)) fun nx => ?_
          cases nx with
          | goto p => exact hl bc f ups p
          | stop => exact .refl _
      · rw [execute, execute]
        exact .bind_right _ fun m => .bind (hl bc f ups 0) fun _ => .refl _
      · rw [callScript, callScript]
        refine .bind_right _ fun f' => ?_
        split
        · exact .refl _
        · exact .bind_right _ fun _ => .bind (he bc _ ups) fun _ => .refl _
  exact (key n).1

theorem calls_le (w : World) {n n' : Nat} (h : n ≤ n') : CallsLe (callsAt w n) (callsAt w n') := by
  induction h with
  | refl => exact ⟨fun _ => .refl _, fun _ _ _ => .refl _, fun _ _ => .refl _⟩
  | step h ih =>
    have := calls_le_succ w
    rename_i k
    exact ⟨fun a => (ih.callFn a).trans ((this k).callFn a), fun a b c => (ih.callCtor a b c).trans ((this k).callCtor a b c),
      fun a b => (ih.runModule a b).trans ((this k).runModule a b)⟩

/-! ## Structured code -/

/-- The same outcome with `d` more steps left. -/
def Outcome.later (d : Nat) : Outcome (Sig × Nat) → Outcome (Sig × Nat)
  | .ok (s, k) => .ok (s, k + d)
  | o => o

/-- With `d` more steps the computation does the same and has `d` more steps left. -/
def Later (x : X) : Prop := ∀ n d m, (x n m).1 = .timeout ∨ x (n + d) m = ((x n m).1.later d, (x n m).2)

theorem Later.pure (s : Sig) : Later fun n => Pure.pure (s, n) := fun _ _ _ => .inr rfl

theorem Later.tick {x : X} (h : Later x) : Later (tick x) := by
  intro n d m
  cases n with
  | zero => exact .inl rfl
  | succ n => rw [Nat.add_right_comm]; exact h n d m

/-- A computation followed by a continuation. -/
theorem Later.bind {x : X} {k : Sig × Nat → V (Sig × Nat)} (h : Later x) (hk : ∀ s, Later fun n => k (s, n)) :
    Later fun n => x n >>= k := by
  intro n d m
  show (V.bind (x n) k m).1 = _ ∨ V.bind (x (n + d)) k m = ((V.bind (x n) k m).1.later d, (V.bind (x n) k m).2)
  unfold V.bind
  rcases h n d m with h | h
  · generalize x n m = r at h ⊢
    obtain ⟨o, m1⟩ := r
    cases h
    exact .inl rfl
  · rw [h]
    generalize x n m = r
    obtain ⟨o, m1⟩ := r
    cases o with
    | ok a => exact hk a.1 a.2 d m1
    | _ => exact .inr rfl

/-- A computation with a value, followed by a continuation. -/
theorem Later.bindV {α : Type} {x : Nat → V α} {k : α → X} (h : ∀ n d, Le (x n) (x (n + d))) (hk : ∀ a, Later (k a)) :
    Later fun n => x n >>= fun a => k a n := by
  intro n d m
  show (V.bind (x n) (k · n) m).1 = _ ∨
    V.bind (x (n + d)) (k · (n + d)) m = ((V.bind (x n) (k · n) m).1.later d, (V.bind (x n) (k · n) m).2)
  unfold V.bind
  rcases h n d m with h | h
  · generalize x n m = r at h ⊢
    obtain ⟨o, m1⟩ := r
    cases h
    exact .inl rfl
  · rw [← h]
    generalize x n m = r
    obtain ⟨o, m1⟩ := r
    cases o with
    | ok a => exact hk a n d m1
    | _ => exact .inr rfl

theorem Later.ite {p : Prop} [Decidable p] {x y : X} (hx : Later x) (hy : Later y) :
    Later fun n => if p then x n else y n := by
  by_cases h : p
  · simp only [if_pos h]; exact hx
  · simp only [if_neg h]; exact hy

theorem istep_le (w : World) (f : Frame) (ups : Option (List Nat)) (i : Instr) (n d : Nat) :
    Le (istep w n f ups i) (istep w (n + d) f ups i) :=
  .bind (step_le w (calls_le w (Nat.le_add_right n d)) _ f ups _ _) fun _ => .refl _

theorem Later.thenRun {b : X} (h : Later b) (s : Sig) : Later fun n => Dice.thenRun b (s, n) := by
  cases s with
  | normal => exact h
  | _ => exact Later.pure _

theorem Later.iterate {body : X} (h : Later body) (g : Nat) : Later fun n => Dice.iterate body g n := by
  induction g with
  | zero => exact fun _ _ _ => .inl rfl
  | succ g ih =>
    show Later fun n => body n >>= _
    refine Later.bind h fun s => ?_
    cases s with
    | normal => exact Later.tick ih
    | cont => exact ih
    | _ => exact Later.pure _

/-- More iterations allowed: no difference. -/
theorem iterate_le {body : X} (g d n : Nat) : Le (iterate body g n) (iterate body (g + d) n) := by
  induction g generalizing n with
  | zero => exact .timeout _
  | succ g ih =>
    rw [Nat.add_right_comm]
    refine .bind_right _ fun r => ?_
    obtain ⟨s, k⟩ := r
    cases s with
    | normal =>
      cases k with
      | zero => exact .refl _
      | succ k => exact ih k
    | cont => exact ih k
    | _ => exact .refl _

/-- A finished run of structured code is the same with a larger budget. -/
theorem exec_later (w : World) (f : Frame) (ups : Option (List Nat)) (c : Code) : Later (exec w f ups c) := by
  induction c with
  | nop => exact Later.pure _
  | instr i => exact Later.tick (Later.bindV (istep_le w f ups i) fun s => Later.pure s)
  | seq a b iha ihb => exact iha.bind ihb.thenRun
  | skipIf b c ih =>
    exact Later.tick (Later.bindV (x := fun _ => popBool) (fun _ _ => .refl _) fun x => Later.ite (Later.pure _) ih)
  | branch t e iht ihe =>
    exact Later.tick (Later.bindV (x := fun _ => popBool) (fun _ _ => .refl _) fun x =>
      Later.ite (iht.bind (Later.thenRun (Later.tick (Later.pure _)))) ihe)
  | loop c ih =>
    intro n d m
    show (iterate _ (n + 1) n m).1 = _ ∨ iterate _ (n + d + 1) (n + d) m = _
    rcases (Later.iterate ih (n + 1)) n d m with h | h
    · exact .inl h
    · rcases iterate_le (body := exec w f ups c) (n + 1) d (n + d) m with h' | h'
      · dsimp only at h
        rw [h] at h'
        refine .inl ?_
        generalize iterate (exec w f ups c) (n + 1) n m = r at h' ⊢
        obtain ⟨o, m1⟩ := r
        cases o with
        | timeout => rfl
        | _ => cases h'
      · right
        dsimp only at h
        rw [show n + d + 1 = n + 1 + d by omega, ← h', h]
        rfl
  | breakIf b | exitIf b =>
    exact Later.tick (Later.bindV (x := fun _ => popBool) (fun _ _ => .refl _) fun x => Later.pure _)
  | brk | cont => exact Later.tick (Later.pure _)
  | chain c ih =>
    refine ih.bind fun s => ?_
    cases s with
    | exit => exact Later.pure _
    | _ => exact Later.pure _

end Dice
