import Verif.VmLemmas

/-!
# The step budget does not matter

The model's executions are bounded by a budget.  Once a computation ends within its budget, a larger budget
gives the same result; so `∃ n, run w n bc m = r` is a property of the program alone.
-/

namespace Dice

/-- `x'` does what `x` does, wherever `x` does not run out of budget. -/
def Ext {α : Type} (x x' : V α) : Prop := ∀ m, (x m).1 ≠ .timeout → x' m = x m

theorem Ext.refl {α : Type} (x : V α) : Ext x x := fun _ _ => rfl

theorem Ext.bind {α β : Type} {x x' : V α} {f f' : α → V β} (hx : Ext x x') (hf : ∀ a, Ext (f a) (f' a)) :
    Ext (x >>= f) (x' >>= f') := by
  intro m h
  have hb : ∀ (y : V α) (g : α → V β), (y >>= g) m = V.bind y g m := fun _ _ => rfl
  rw [hb] at h ⊢
  rw [hb]
  unfold V.bind at h ⊢
  have hxm := hx m
  generalize hr : x m = r at h hxm
  obtain ⟨o, m1⟩ := r
  cases o with
  | ok a =>
    rw [hxm (by simp)]
    exact hf a m1 h
  | err e => rw [hxm (by simp)]
  | panic s => rw [hxm (by simp)]
  | timeout => simp at h

theorem Ext.timeout {α : Type} (x : V α) : Ext V.timeout x := fun _ h => absurd rfl h

theorem Ext.ite {α : Type} {c : Prop} [Decidable c] {x y x' y' : V α} (hx : Ext x x') (hy : Ext y y') :
    Ext (if c then x else y) (if c then x' else y') := by
  split
  · exact hx
  · exact hy

structure CallsExt (k k' : Calls) : Prop where
  callFn : ∀ n, Ext (k.callFn n) (k'.callFn n)
  callCtor : ∀ n c o, Ext (k.callCtor n c o) (k'.callCtor n c o)
  runModule : ∀ b e, Ext (k.runModule b e) (k'.runModule b e)

variable {w : World}

theorem callBinaryOp_ext {cf cf' : Nat → V Unit} (h : ∀ n, Ext (cf n) (cf' n)) (name : String) (v : Value) :
    Ext (callBinaryOp w cf name v) (callBinaryOp w cf' name v) := by
  unfold callBinaryOp
  refine Ext.bind (Ext.refl _) fun _ => Ext.bind (Ext.refl _) fun _ => ?_
  refine Ext.ite ?_ ?_
  · exact Ext.bind (Ext.refl _) fun _ => Ext.bind (Ext.refl _) fun _ => Ext.bind (Ext.refl _) fun _ =>
      Ext.bind (Ext.refl _) fun _ => h _
  · exact Ext.bind (Ext.refl _) fun _ => Ext.bind (Ext.refl _) fun _ => h _

theorem binaryOp_ext {cf cf' : Nat → V Unit} (h : ∀ n, Ext (cf n) (cf' n)) (o : Opcode) :
    Ext (binaryOp w cf o) (binaryOp w cf' o) := by
  unfold binaryOp
  refine Ext.bind (Ext.refl _) fun _ => Ext.bind (Ext.refl _) fun _ => ?_
  split
  · exact Ext.refl _
  · exact Ext.refl _
  · exact Ext.refl _
  · exact Ext.refl _
  · exact Ext.refl _
  · exact callBinaryOp_ext h _ _

theorem moduleValue_ext {k k' : Calls} (h : CallsExt k k') (name : String) :
    Ext (moduleValue w k name) (moduleValue w k' name) := by
  intro m hm
  unfold moduleValue at hm ⊢
  cases hg : m.modules.get name with
  | some v => rfl
  | none =>
    rw [hg] at hm
    dsimp only at hm ⊢
    cases hl : w.loader name with
    | error e => rfl
    | ok bc =>
      rw [hl] at hm
      exact h.runModule _ _ _ hm

theorem step_ext {k k' : Calls} (h : CallsExt k k') (bc : Bytecode) (f : Frame) (ups : Option (List Nat))
    (o : Opcode) (pos : Nat) : Ext (step w k bc f ups o pos) (step w k' bc f ups o pos) := by
  have hbin : ∀ o, Ext (binaryOp w k.callFn o >>= fun _ => Pure.pure (Next.goto pos))
      (binaryOp w k'.callFn o >>= fun _ => Pure.pure (Next.goto pos)) := fun o =>
    Ext.bind (binaryOp_ext h.callFn o) fun _ => Ext.refl _
  cases o
  case multiply | divide | remainder | add | subtract | greaterThan | greaterThanOrEqual | lessThan
      | lessThanOrEqual | equal | notEqual | rangeInclusive | rangeExclusive => exact hbin _
  case call => exact Ext.bind (Ext.refl _) fun _ => Ext.bind (h.callFn _) fun _ => Ext.refl _
  case callSuper =>
    exact Ext.bind (Ext.refl _) fun _ => Ext.bind (Ext.refl _) fun _ => Ext.bind (Ext.refl _) fun _ =>
      Ext.bind (Ext.refl _) fun _ => Ext.bind (h.callCtor _ _ _) fun _ => Ext.refl _
  case loadModule =>
    exact Ext.bind (Ext.refl _) fun _ => Ext.bind
      (Ext.bind (moduleValue_ext h _) fun _ => Ext.refl _) fun _ => Ext.refl _
  all_goals exact Ext.refl _

/-- One more unit of budget does not change the result of a computation that ended. -/
theorem exec_ext (n : Nat) :
    (∀ bc f ups pos, Ext (loop w n bc f ups pos) (loop w (n + 1) bc f ups pos)) ∧
    (∀ bc f ups, Ext (execute w n bc f ups) (execute w (n + 1) bc f ups)) ∧
    (∀ argc r bc ups, Ext (callScript w n argc r bc ups) (callScript w (n + 1) argc r bc ups)) ∧
    (∀ argc, Ext (callFn w n argc) (callFn w (n + 1) argc)) ∧
    (∀ argc c o, Ext (callCtor w n argc c o) (callCtor w (n + 1) argc c o)) ∧
    (∀ bc e, Ext (runModule w n bc e) (runModule w (n + 1) bc e)) := by
  induction n with
  | zero =>
    refine ⟨?_, ?_, ?_, ?_, ?_, ?_⟩ <;> intros <;> intro m hm <;> exfalso <;> apply hm
    · unfold loop; rfl
    · unfold execute; rfl
    · unfold callScript; rfl
    · unfold callFn; rfl
    · unfold callCtor; rfl
    · unfold runModule; rfl
  | succ n ih =>
    obtain ⟨ihl, ihe, ihs, ihf, ihc, ihm⟩ := ih
    refine ⟨?_, ?_, ?_, ?_, ?_, ?_⟩
    · intro bc f ups pos
      rw [loop, loop]
      refine Ext.bind (Ext.refl _) fun o => ?_
      cases o with
      | none => exact Ext.refl _
      | some o =>
        refine Ext.bind (step_ext ⟨ihf, ihc, ihm⟩ _ _ _ _ _) fun nx => ?_
        cases nx with
        | goto p => exact ihl _ _ _ _
        | stop => exact Ext.refl _
    · intro bc f ups
      rw [execute, execute]
      exact Ext.bind (Ext.refl _) fun m => Ext.bind (ihl _ _ _ _) fun _ => Ext.refl _
    · intro argc r bc ups
      rw [callScript, callScript]
      refine Ext.bind (Ext.refl _) fun f => ?_
      refine Ext.ite (Ext.refl _) ?_
      exact Ext.bind (Ext.refl _) fun _ => Ext.bind (ihe _ _ _) fun _ => Ext.refl _
    · intro argc
      rw [callFn, callFn]
      refine Ext.bind (Ext.refl _) fun t => ?_
      refine Ext.bind ?_ fun _ => Ext.refl _
      generalize callTarget t = x
      obtain ⟨v, r⟩ := x
      cases v
      case fnClosure => exact ihs _ _ _ _
      case fnScript => exact ihs _ _ _ _
      case cls => exact Ext.bind (Ext.refl _) fun _ => ihc _ _ _
      all_goals exact Ext.refl _
    · intro argc c o
      rw [callCtor, callCtor]
      refine Ext.bind (Ext.refl _) fun m => ?_
      refine Ext.bind ?_ fun _ => Ext.refl _
      cases m.heap.method c "new" with
      | some new => exact Ext.bind (Ext.refl _) fun _ => Ext.bind (ihf _) fun _ => Ext.refl _
      | none => exact Ext.refl _
    · intro bc e
      rw [runModule, runModule]
      exact Ext.bind (Ext.refl _) fun f => Ext.bind (Ext.refl _) fun _ => Ext.bind (ihe _ _ _) fun _ =>
        Ext.refl _

theorem Ext.trans {α : Type} {x y z : V α} (h1 : Ext x y) (h2 : Ext y z) : Ext x z := by
  intro m hm
  have := h1 m hm
  rw [h2 m (by rw [this]; exact hm), this]

theorem ext_of_le {α : Type} {x : Nat → V α} (h : ∀ n, Ext (x n) (x (n + 1))) {n n' : Nat} (hn : n ≤ n') :
    Ext (x n) (x n') := by
  induction hn with
  | refl => exact Ext.refl _
  | step _ ih => exact ih.trans (h _)

theorem loop_mono {n n' : Nat} (hn : n ≤ n') (bc : Bytecode) (f : Frame) (ups : Option (List Nat))
    (pos : Nat) : Ext (loop w n bc f ups pos) (loop w n' bc f ups pos) :=
  ext_of_le (x := fun n => loop w n bc f ups pos) (fun n => (exec_ext n).1 _ _ _ _) hn

theorem execute_mono {n n' : Nat} (hn : n ≤ n') (bc : Bytecode) (f : Frame) (ups : Option (List Nat)) :
    Ext (execute w n bc f ups) (execute w n' bc f ups) :=
  ext_of_le (x := fun n => execute w n bc f ups) (fun n => (exec_ext n).2.1 _ _ _) hn

theorem callFn_mono {n n' : Nat} (hn : n ≤ n') (argc : Nat) : Ext (callFn w n argc) (callFn w n' argc) :=
  ext_of_le (x := fun n => callFn w n argc) (fun n => (exec_ext n).2.2.2.1 _) hn

theorem callScript_mono {n n' : Nat} (hn : n ≤ n') (argc : Nat) (r : Option Value) (bc : Bytecode)
    (ups : Option (List Nat)) : Ext (callScript w n argc r bc ups) (callScript w n' argc r bc ups) :=
  ext_of_le (x := fun n => callScript w n argc r bc ups) (fun n => (exec_ext n).2.2.1 _ _ _ _) hn

theorem callCtor_mono {n n' : Nat} (hn : n ≤ n') (argc c : Nat) (o : Value) :
    Ext (callCtor w n argc c o) (callCtor w n' argc c o) :=
  ext_of_le (x := fun n => callCtor w n argc c o) (fun n => (exec_ext n).2.2.2.2.1 _ _ _) hn

theorem runModule_mono {n n' : Nat} (hn : n ≤ n') (bc : Bytecode) (e : Value) :
    Ext (runModule w n bc e) (runModule w n' bc e) :=
  ext_of_le (x := fun n => runModule w n bc e) (fun n => (exec_ext n).2.2.2.2.2 _ _) hn

theorem run_mono {n n' : Nat} (hn : n ≤ n') (bc : Bytecode) : Ext (run w n bc) (run w n' bc) :=
  Ext.bind (Ext.refl _) fun _ => Ext.bind (execute_mono hn _ _ _) fun _ => Ext.refl _

/-- The result of a program does not depend on the budget. -/
theorem run_deterministic {n n' : Nat} {bc : Bytecode} {m : VM} (h : (run w n bc m).1 ≠ .timeout)
    (h' : (run w n' bc m).1 ≠ .timeout) : run w n bc m = run w n' bc m := by
  rcases Nat.le_total n n' with hn | hn
  · exact (run_mono hn bc m h).symm
  · exact run_mono hn bc m h'

end Dice
