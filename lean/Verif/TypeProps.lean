import Verif.KernelRfl
import Verif.CaptureProps

/-!
# Declared types are enforced (C48), at the level of the instructions

`Conforms` is the specification: a value conforms to the annotation `T` if it is not null and its class is
`T` or descends from it, and to `T?` also if it is null.
-/

namespace Dice

/-- The meaning of the annotation `T` (`nullable = false`) and `T?` (`nullable = true`) for class `c`. -/
def Conforms (w : World) (h : Heap) (nullable : Bool) (c : Nat) (v : Value) : Prop :=
  (v = .null ∧ nullable = true) ∨ (v ≠ .null ∧ ∃ d, h.classOf w v = some d ∧ Ancestor h d c)

theorem isOfType_iff {w : World} {h : Heap} (hi : HeapInv h) {v : Value} {c : Nat} :
    h.isOfType w v c = true ↔ ∃ d, h.classOf w v = some d ∧ Ancestor h d c := by
  unfold Heap.isOfType
  cases hd : h.classOf w v with
  | none => simp
  | some d =>
    simp only [Option.some.injEq, exists_eq_left']
    exact isClass_iff hi

/-- The check succeeds without any effect exactly on conforming values, and otherwise ends in a type
error. -/
theorem assertTypeOf_iff {w : World} {m : VM} (hi : HeapInv m.heap) (nullable : Bool) (c : Nat) (v : Value) :
    (Conforms w m.heap nullable c v → assertTypeOf w nullable c v m = (.ok (), m)) ∧
    (¬ Conforms w m.heap nullable c v →
      ∃ e, (e = .assertNull ∨ e = .assertType) ∧ assertTypeOf w nullable c v m = (.err e, m)) := by
  have hnn : v.isNull = true ↔ v = .null := by cases v <;> simp [Value.isNull]
  unfold assertTypeOf
  by_cases hv : v.isNull = true
  · have := hnn.mp hv
    subst this
    rw [if_pos hv]
    cases nullable with
    | true =>
      rw [if_pos rfl]
      exact ⟨fun _ => rfl, fun h => absurd (Or.inl ⟨rfl, rfl⟩) h⟩
    | false =>
      refine ⟨fun h => ?_, fun _ => ⟨_, Or.inl rfl, rfl⟩⟩
      rcases h with ⟨_, h⟩ | ⟨h, _⟩
      · cases h
      · exact absurd rfl h
  · rw [if_neg hv]
    have hne : v ≠ .null := fun h => hv (hnn.mpr h)
    unfold assertType
    by_cases ht : m.heap.isOfType w v c = true
    · rw [if_pos ht]
      exact ⟨fun _ => rfl, fun h => absurd (Or.inr ⟨hne, (isOfType_iff hi).mp ht⟩) h⟩
    · rw [if_neg ht]
      refine ⟨fun h => ?_, fun _ => ⟨_, Or.inr rfl, rfl⟩⟩
      rcases h with ⟨h, _⟩ | ⟨_, h⟩
      · exact absurd h hne
      · exact absurd ((isOfType_iff hi).mpr h) ht

/-- The instruction that checks a local (parameters and annotated `let`): `T` or `T?`. -/
def localCheck (nullable : Bool) : Opcode := if nullable then .assertTypeOrNullForLocal else .assertTypeForLocal

/-- The instruction that checks a result and returns: `T` or `T?`. -/
def returnCheck (nullable : Bool) : Opcode :=
  if nullable then .assertTypeOrNullAndReturn else .assertTypeAndReturn

/-- C48, locals: with the class of the annotation on top of the stack, the check of a local drops the class
and continues if the value of the local conforms, and otherwise ends in a type error. -/
theorem local_type_enforced {w : World} (k : Calls) {bc : Bytecode} {f : Frame} (ups : Option (List Nat))
    {pos : Nat} {m : VM} {p c : Nat} {b : UInt8} (nullable : Bool) (hi : HeapInv m.heap)
    (hp : m.ptr = p + 1) (hb : p < maxStack) (hc : m.mem p = .cls c)
    (hs : bc.data[pos]? = some b) (hf : f.stop ≤ maxStack) (hl : f.start + b.toNat < f.stop) (hlt : f.stop ≤ p) :
    (Conforms w m.heap nullable c (m.mem (f.start + b.toNat)) →
      step w k bc f ups (localCheck nullable) pos m
        = (.ok (.goto (pos + 1)), { m with mem := upd m.mem p .null, ptr := p })) ∧
    (¬ Conforms w m.heap nullable c (m.mem (f.start + b.toNat)) →
      ∃ e m', (e = .assertNull ∨ e = .assertType) ∧
        step w k bc f ups (localCheck nullable) pos m = (.err e, m')) := by
  have key : step w k bc f ups (localCheck nullable) pos m =
      (do assertTypeOf w nullable c (m.mem (f.start + b.toNat)); pure (Next.goto (pos + 1)) : V Next)
        { m with mem := upd m.mem p .null, ptr := p } := by
    cases nullable
    all_goals
      simp only [localCheck, if_true, Bool.false_eq_true, if_false]
      unfold step
      dsimp only
      rw [bind_ok (pop_eval hp hb), hc]
      rw [bind_ok (show asClass (.cls c) _ = (.ok c, _) from rfl)]
      rw [bind_ok (show operand bc pos _ = (.ok b.toNat, _) by unfold operand readU8; rw [hs]; rfl)]
      rw [bind_ok (frameGet_eval hf hl)]
      dsimp only
      rw [upd_other (by omega)]
  rw [key]
  have := assertTypeOf_iff (w := w) (m := { m with mem := upd m.mem p .null, ptr := p }) hi nullable c
    (m.mem (f.start + b.toNat))
  refine ⟨fun h => ?_, fun h => ?_⟩
  · rw [bind_ok (this.1 h)]; rfl
  · obtain ⟨e, he, h2⟩ := this.2 h
    exact ⟨e, _, he, bind_err h2⟩

/-- C48, results: with the class of the annotation on top of the stack and the result below it, a checked
return drops the class and leaves the function if the result conforms, and otherwise ends in a type
error. -/
theorem result_type_enforced {w : World} (k : Calls) (bc : Bytecode) (f : Frame) (ups : Option (List Nat))
    (pos : Nat) {m : VM} {p c : Nat} {v : Value} (nullable : Bool) (hi : HeapInv m.heap)
    (ht : Top2 m p v (.cls c)) :
    (Conforms w m.heap nullable c v →
      step w k bc f ups (returnCheck nullable) pos m
        = (.ok .stop, { m with mem := upd m.mem (p + 1) .null, ptr := p + 1 })) ∧
    (¬ Conforms w m.heap nullable c v →
      ∃ e m', (e = .assertNull ∨ e = .assertType) ∧
        step w k bc f ups (returnCheck nullable) pos m = (.err e, m')) := by
  have hb := ht.bound
  have key : step w k bc f ups (returnCheck nullable) pos m =
      (do assertTypeOf w nullable c v; pure Next.stop : V Next)
        { m with mem := upd m.mem (p + 1) .null, ptr := p + 1 } := by
    cases nullable
    all_goals
      simp only [returnCheck, if_true, Bool.false_eq_true, if_false]
      unfold step
      dsimp only
      rw [bind_ok (pop_eval (p := p + 1) ht.ptr (by omega)), ht.rhs]
      rw [bind_ok (show asClass (.cls c) _ = (.ok c, _) from rfl)]
      rw [bind_ok (peek_eval (i := 0) (p := p) rfl (by omega))]
      dsimp only
      rw [upd_other (by omega), ht.lhs]
  rw [key]
  have := assertTypeOf_iff (w := w) (m := { m with mem := upd m.mem (p + 1) .null, ptr := p + 1 }) hi nullable c v
  refine ⟨fun h => ?_, fun h => ?_⟩
  · rw [bind_ok (this.1 h)]; rfl
  · obtain ⟨e, he, h2⟩ := this.2 h
    exact ⟨e, _, he, bind_err h2⟩

/-- In the heap of classes `A`, `B` below it and a third below `B`, an object of class `B` conforms to `A` but not to
the third, and null only to the nullable annotation. -/
example (w : World) : let h := (exampleHeap.newObject 1).2
    Conforms w h false 0 (.object 0) ∧ ¬ Conforms w h false 2 (.object 0) ∧
    ¬ Conforms w h false 0 .null ∧ Conforms w h true 0 .null := by
  have hi : HeapInv (exampleHeap.newObject 1).2 :=
    HeapInv.newObject (((HeapInv.empty.newRootClass "A").derive "B" (base := 0) rfl).derive "B" (base := 1) rfl) 1
  refine ⟨.inr ⟨nofun, (isOfType_iff hi).1 (by kernel_rfl)⟩, ?_, ?_, .inl ⟨rfl, rfl⟩⟩
  · rintro (⟨h, -⟩ | ⟨-, h⟩)
    · cases h
    · have hn : (exampleHeap.newObject 1).2.isOfType w (.object 0) 2 = false := by kernel_rfl
      rw [(isOfType_iff hi).2 h] at hn
      cases hn
  · rintro (⟨-, h⟩ | ⟨h, -⟩)
    · cases h
    · exact h rfl

end Dice
