import Verif.Vm

/-!
# Induction over executions

A relation between machine states that is reflexive, transitive and respected by every primitive operation
holds between the states before and after any execution, whether it ends with a value, an error or a panic.
This file proves that once, for all relations.
-/

namespace Dice

/-- `x` moves the machine along `R`, whatever its outcome. -/
def Pres {α : Type} (R : VM → VM → Prop) (x : V α) : Prop := ∀ m, R m (x m).2

/-- What a relation has to satisfy at every primitive operation of the machine. -/
structure Prims (w : World) (R : VM → VM → Prop) : Prop where
  refl : ∀ m, R m m
  trans : ∀ a b c, R a b → R b c → R a c
  /-- The stack: any change of memory and pointer made by the instructions themselves. -/
  push : ∀ v, Pres R (push v)
  pop : Pres R pop
  poke : ∀ i v, Pres R (poke i v)
  popCount : ∀ n, Pres R (popCount n)
  swap : Pres R swap
  reserve : ∀ n, Pres R (reserveSlots w n)
  release : ∀ f, Pres R (releaseFrame w f)
  frameSet : ∀ f i v, Pres R (frameSet f i v)
  memSet : ∀ i v, Pres R (memSet i v)
  /-- The heap. -/
  newArray : ∀ xs, Pres R (onHeap fun h => h.newArray xs)
  newObject : ∀ c, Pres R (onHeap fun h => h.newObject c)
  newClass : ∀ m name base b, m.heap.classes[base]? = some b →
    R m { m with heap := (m.heap.classWithBase name base b).2 }
  setField : ∀ m v o key x, m.heap.asObject v = some o → R m { m with heap := m.heap.setField o key x }
  setMethod : ∀ c key x, Pres R (onHeap fun h => ((), h.setMethod c key x))
  setArray : ∀ m a (arr : Arr) elements, m.heap.arrays[a]? = some arr →
    R m { m with heap := { m.heap with arrays := m.heap.arrays.set a { arr with elements := elements } } }
  native : ∀ i args m, R m { m with heap := (w.native i args m.heap).2 }
  /-- Captured variables. -/
  capture : ∀ i, Pres R (captureLocal i)
  close : ∀ f i, Pres R (closeUpvalue f i)
  writeCell : ∀ a v, Pres R (writeCell a v)
  /-- Globals and modules. -/
  global : ∀ m name v, m.globals.get name = none → R m { m with globals := m.globals.insert name v }
  module : ∀ m name v, m.modules.get name = none → R m { m with modules := m.modules.insert name v }

section
variable {R : VM → VM → Prop} {w : World}

theorem Pres.pure (P : Prims w R) {α : Type} (a : α) : Pres R (Pure.pure a : V α) := fun m => P.refl m

theorem Pres.bind (P : Prims w R) {α β : Type} {x : V α} {f : α → V β} (hx : Pres R x)
    (hf : ∀ a, Pres R (f a)) : Pres R (x >>= f) := by
  intro m
  have h := hx m
  show R m (V.bind x f m).2
  unfold V.bind
  generalize hxm : x m = r at h
  obtain ⟨o, m1⟩ := r
  cases o with
  | ok a => exact P.trans _ _ _ h (hf a m1)
  | err _ => exact h
  | panic _ => exact h
  | timeout => exact h

theorem Pres.err (P : Prims w R) {α : Type} (e : RtErr) : Pres R (V.err e : V α) := fun m => P.refl m
theorem Pres.panic (P : Prims w R) {α : Type} (e : String) : Pres R (V.panic e : V α) := fun m => P.refl m
theorem Pres.timeout (P : Prims w R) {α : Type} : Pres R (V.timeout : V α) := fun m => P.refl m
theorem Pres.get (P : Prims w R) : Pres R V.get := fun m => P.refl m

theorem Pres.ite (R : VM → VM → Prop) {α : Type} {c : Prop} [Decidable c] {x y : V α} (hx : Pres R x)
    (hy : Pres R y) : Pres R (if c then x else y) := by
  split
  · exact hx
  · exact hy

/-- A computation that leaves the state alone. -/
theorem Pres.read (P : Prims w R) {α : Type} {x : V α} (h : ∀ m, (x m).2 = m) : Pres R x := by
  intro m
  rw [h m]
  exact P.refl m

theorem peek_state (i : Nat) (m : VM) : (peek i m).2 = m := by
  unfold peek
  split <;> rfl

theorem frameGet_state (f : Frame) (i : Nat) (m : VM) : (frameGet f i m).2 = m := by
  unfold frameGet
  split <;> rfl

theorem memGet_state (i : Nat) (m : VM) : (memGet i m).2 = m := by
  unfold memGet
  split <;> rfl

theorem readCell_state (a : Nat) (m : VM) : (readCell a m).2 = m := by
  unfold readCell
  split
  · exact memGet_state _ _
  · rfl
  · rfl

theorem operand_state (bc : Bytecode) (p : Nat) (m : VM) : (operand bc p m).2 = m := by
  unfold operand
  generalize readU8 bc.data p = r
  cases r <;> rfl

theorem offsetOperand_state (bc : Bytecode) (p : Nat) (m : VM) : (offsetOperand bc p m).2 = m := by
  unfold offsetOperand
  generalize readOffset bc.data p = r
  cases r <;> rfl

theorem constant_state (bc : Bytecode) (p : Nat) (m : VM) : (constant bc p m).2 = m := by
  unfold constant
  generalize bc.constants[p]? = r
  cases r <;> rfl

theorem asBool_state (v : Value) (m : VM) : (asBool v m).2 = m := by cases v <;> rfl
theorem asSymbol_state (v : Value) (m : VM) : (asSymbol v m).2 = m := by cases v <;> rfl
theorem asClass_state (v : Value) (m : VM) : (asClass v m).2 = m := by cases v <;> rfl

theorem asObject_state (v : Value) (m : VM) : (asObject v m).2 = m := by
  unfold asObject
  split <;> rfl

theorem getMethod_state (c : Option Nat) (key : String) (v : Value) (m : VM) :
    (getMethod c key v m).2 = m := by
  unfold getMethod
  split <;> rfl

theorem getField_state (w : World) (key : String) (v : Value) (m : VM) : (getField w key v m).2 = m := by
  unfold getField
  split
  · rfl
  · split
    · rfl
    · exact getMethod_state _ _ _ _

theorem upvalueAt_state (ups : Option (List Nat)) (i : Nat) (m : VM) : (upvalueAt ups i m).2 = m := by
  unfold upvalueAt
  cases ups with
  | none => rfl
  | some us =>
    dsimp only
    generalize us[i]? = r
    cases r <;> rfl

theorem i64Result_state (w : World) (x : Int) (m : VM) : (i64Result w x m).2 = m := by
  unfold i64Result
  split
  · rfl
  · split <;> rfl

theorem i64Div_state (l r : Int) (m : VM) : (i64Div l r m).2 = m := by
  unfold i64Div
  split <;> rfl

theorem i64Rem_state (l r : Int) (m : VM) : (i64Rem l r m).2 = m := by
  unfold i64Rem
  split <;> rfl

theorem assertType_state (w : World) (c : Nat) (v : Value) (m : VM) : (assertType w c v m).2 = m := by
  unfold assertType
  split <;> rfl

theorem assertTypeOf_state (w : World) (b : Bool) (c : Nat) (v : Value) (m : VM) :
    (assertTypeOf w b c v m).2 = m := by
  unfold assertTypeOf
  split
  · split <;> rfl
  · exact assertType_state _ _ _ _

theorem fetch_state (bc : Bytecode) (p : Nat) (m : VM) : (fetch bc p m).2 = m := by
  unfold fetch
  generalize readInstruction bc.data p = r
  obtain _ | _ | r := r <;> rfl

theorem operatorFn_state (name : String) (m : VM) : (operatorFn name m).2 = m := by
  unfold operatorFn
  split <;> rfl

theorem globalValue_state (name : String) (m : VM) : (globalValue name m).2 = m := by
  unfold globalValue
  split <;> rfl

theorem testType_state (w : World) (v : Value) (c : Nat) (m : VM) : (testType w v c m).2 = m := rfl

theorem negate_state (w : World) (v : Value) (m : VM) : (negate w v m).2 = m := by
  cases v <;> try rfl
  rename_i x
  have h := i64Result_state w (-x) m
  show (V.bind (i64Result w (-x)) _ m).2 = m
  unfold V.bind
  generalize i64Result w (-x) m = r at h
  obtain ⟨o, m1⟩ := r
  cases o <;> exact h

theorem notValue_state (v : Value) (m : VM) : (notValue v m).2 = m := by cases v <;> rfl

theorem symbolOperand_pres (P : Prims w R) (bc : Bytecode) (p : Nat) : Pres R (symbolOperand bc p) :=
  Pres.bind P (Pres.read P (operand_state _ _)) fun _ =>
    Pres.bind P (Pres.read P (constant_state _ _)) fun _ => Pres.read P (asSymbol_state _)

theorem captures_pres (P : Prims w R) (bc : Bytecode) (f : Frame) (ups : Option (List Nat)) (n : Nat) :
    ∀ p, Pres R (captures bc f ups n p) := by
  induction n with
  | zero => intro p; exact Pres.pure P _
  | succ n ih =>
    intro p
    unfold captures
    refine Pres.bind P ?_ fun a => ?_
    · unfold captureOne
      refine Pres.bind P (Pres.read P (operand_state _ _)) fun k => ?_
      refine Pres.bind P (Pres.read P (operand_state _ _)) fun i => ?_
      split
      · exact P.capture _
      · exact Pres.read P (upvalueAt_state _ _)
    · exact Pres.bind P (ih _) fun _ => Pres.pure P _

theorem callBinaryOp_pres (P : Prims w R) {cf : Nat → V Unit} (h : ∀ n, Pres R (cf n)) (name : String)
    (v : Value) : Pres R (callBinaryOp w cf name v) := by
  unfold callBinaryOp
  refine Pres.bind P P.pop fun lhs => ?_
  refine Pres.bind P (Pres.read P (getField_state _ _ _)) fun method => ?_
  split
  · refine Pres.bind P (Pres.read P (operatorFn_state _)) fun f => ?_
    · exact Pres.bind P (P.push _) fun _ => Pres.bind P (P.push _) fun _ =>
        Pres.bind P (P.push _) fun _ => h _
  · exact Pres.bind P (P.push _) fun _ => Pres.bind P (P.push _) fun _ => h _

theorem binaryOp_pres (P : Prims w R) {cf : Nat → V Unit} (h : ∀ n, Pres R (cf n)) (o : Opcode) :
    Pres R (binaryOp w cf o) := by
  unfold binaryOp
  refine Pres.bind P P.pop fun rhs => ?_
  refine Pres.bind P (Pres.read P (peek_state _)) fun lhs => ?_
  split
  · exact P.poke _ _
  · exact Pres.bind P (Pres.read P (i64Result_state _ _)) fun _ => P.poke _ _
  · exact Pres.bind P (Pres.read P (i64Div_state _ _)) fun _ => P.poke _ _
  · exact Pres.bind P (Pres.read P (i64Rem_state _ _)) fun _ => P.poke _ _
  · exact Pres.err P _
  · exact callBinaryOp_pres P h _ _

theorem storeGlobal_pres (P : Prims w R) (name : String) : Pres R (storeGlobal name) := by
  refine Pres.bind P P.pop fun v => ?_
  intro m
  unfold defineGlobal
  split
  · exact P.refl m
  · rename_i h
    exact P.global m name v h

theorem loadGlobal_pres (P : Prims w R) (name : String) : Pres R (loadGlobal name) :=
  Pres.bind P (Pres.read P (globalValue_state _)) fun _ => P.push _

theorem inheritClass_pres (P : Prims w R) (name : String) : Pres R (inheritClass w name) := by
  refine Pres.bind P P.pop fun b => ?_
  refine Pres.bind P (Pres.read P (asClass_state _)) fun base => ?_
  dsimp only
  split
  · exact Pres.err P _
  · refine Pres.bind P ?_ fun _ => P.push _
    intro m
    unfold deriveClass
    split
    · rename_i h
      exact P.newClass m name base _ h
    · exact P.refl m

theorem getIndex_state (w : World) (t i : Value) (m : VM) : (getIndex w t i m).2 = m := by
  have key : (Bind.bind (asSymbol i) (fun field => getField w field t) m : Outcome Value × VM).2 = m := by
    cases i <;> first | rfl | exact getField_state _ _ _ _
  cases t <;> try exact key
  rename_i a
  cases i <;> try exact key
  show (match m.heap.arrays[a]? with
    | some arr => _
    | none => (_, m) : Outcome Value × VM).2 = m
  split <;> rfl

theorem loadIndex_pres (P : Prims w R) : Pres R (loadIndex w) :=
  Pres.bind P P.pop fun _ => Pres.bind P (Pres.read P (peek_state _)) fun _ =>
    Pres.bind P (Pres.read P (getIndex_state _ _ _)) fun _ => P.poke _ _

/-- `asObject` followed by `setField`. -/
theorem setField_pres (P : Prims w R) {α : Type} (v x : Value) {g : Obj → V String} {k : Obj → String → V α}
    (hg : ∀ o m, (g o m).2 = m) (hk : ∀ o s, Pres R (k o s)) :
    Pres R (asObject v >>= fun o => g o >>= fun key =>
      (onHeap fun h => ((), h.setField o key x)) >>= fun _ => k o key) := by
  intro m
  show R m (V.bind (asObject v) _ m).2
  unfold V.bind asObject
  cases h : m.heap.asObject v with
  | none => exact P.refl m
  | some o =>
    show R m (V.bind (g o) _ m).2
    have hs := hg o m
    unfold V.bind
    generalize hgm : g o m = r at hs
    obtain ⟨out, m1⟩ := r
    simp only at hs
    subst hs
    cases out with
    | ok key => exact P.trans _ _ _ (P.setField m1 v o key x h) (hk o key _)
    | err _ => exact P.refl _
    | panic _ => exact P.refl _
    | timeout => exact P.refl _

theorem setField_pres' (P : Prims w R) {α : Type} (v x : Value) (key : String) {k : V α} (hk : Pres R k) :
    Pres R (asObject v >>= fun o => (onHeap fun h => ((), h.setField o key x)) >>= fun _ => k) :=
  setField_pres P (α := α) v x (g := fun _ => Pure.pure key) (k := fun _ _ => k) (fun _ _ => rfl)
    (fun _ _ => hk)

theorem V.bind_pure_unit (x : V Unit) : (x >>= fun _ => Pure.pure ()) = x := by
  funext m
  show V.bind x _ m = x m
  unfold V.bind
  generalize x m = r
  obtain ⟨o, m1⟩ := r
  cases o <;> rfl

theorem putIndex_pres (P : Prims w R) (t i v : Value) : Pres R (putIndex t i v) := by
  have key : Pres R (do
      let object ← asObject t
      let field ← asSymbol i
      onHeap fun h => ((), h.setField object field v)) := by
    have h := setField_pres P (w := w) (g := fun _ => asSymbol i) (k := fun _ _ => Pure.pure ()) t v
      (fun _ => asSymbol_state i) (fun _ _ => Pres.pure P _)
    simp only [V.bind_pure_unit] at h
    exact h
  cases t <;> try exact key
  rename_i a
  cases i <;> try exact key
  intro m
  show R m (match m.heap.arrays[a]? with
    | some arr => _
    | none => (_, m) : Outcome Unit × VM).2
  split
  · rename_i h
    split
    · exact P.setArray m _ _ _ h
    · exact P.refl m
  · exact P.refl m

theorem setIndex_pres (P : Prims w R) (r : Value → Value) : Pres R (setIndex r) :=
  Pres.bind P P.pop fun _ => Pres.bind P P.pop fun _ => Pres.bind P (Pres.read P (peek_state _)) fun _ =>
    Pres.bind P (putIndex_pres P _ _ _) fun _ => P.poke _ _

/-- All functions an instruction may call respect `R`. -/
structure CallsPres (R : VM → VM → Prop) (k : Calls) : Prop where
  callFn : ∀ n, Pres R (k.callFn n)
  callCtor : ∀ n c o, Pres R (k.callCtor n c o)
  runModule : ∀ b e, Pres R (k.runModule b e)

theorem loadModule_pres (P : Prims w R) {k : Calls} (hk : CallsPres R k) (name : String) :
    Pres R (loadModule w k name) := by
  refine Pres.bind P ?_ fun _ => P.push _
  intro m
  unfold moduleValue
  split
  · exact P.refl m
  · rename_i hn
    have h1 := P.newObject w.moduleClass m
    have h2 := P.module _ name (m.heap.newObject w.moduleClass).1
      (show (onHeap (fun h => h.newObject w.moduleClass) m).2.modules.get name = none from hn)
    have h3 := P.trans _ _ _ h1 h2
    dsimp only
    split
    · exact h3
    · exact P.trans _ _ _ h3 (hk.runModule _ _ _)

theorem step_pres (P : Prims w R) {k : Calls} (hk : CallsPres R k) (bc : Bytecode) (f : Frame)
    (ups : Option (List Nat)) (o : Opcode) (pos : Nat) : Pres R (step w k bc f ups o pos) := by
  have hop := fun p => Pres.read P (operand_state bc p)
  have hoff := fun p => Pres.read P (offsetOperand_state bc p)
  have hc := fun p => Pres.read P (constant_state bc p)
  have hsym := symbolOperand_pres P bc
  have hpk := fun i => Pres.read P (peek_state i)
  have hfg := fun i => Pres.read P (frameGet_state f i)
  have hup := fun i => Pres.read P (upvalueAt_state ups i)
  have hcls := fun v => Pres.read P (asClass_state v)
  have hb := fun v => Pres.read P (asBool_state v)
  have hpure : ∀ x : Next, Pres R (Pure.pure x : V Next) := fun x => Pres.pure P x
  have hbin : ∀ o, Pres R (binaryOp w k.callFn o) := binaryOp_pres P hk.callFn
  cases o <;> unfold step <;> dsimp only
  case pushNull | pushUnit | pushFalse | pushTrue | pushI0 | pushI1 | pushF0 | pushF1 =>
    exact Pres.bind P (P.push _) fun _ => hpure _
  case pushConst =>
    exact Pres.bind P (hop _) fun _ => Pres.bind P (hc _) fun _ => Pres.bind P (P.push _) fun _ => hpure _
  case pop => exact Pres.bind P P.pop fun _ => hpure _
  case swap => exact Pres.bind P P.swap fun _ => hpure _
  case dup =>
    exact Pres.bind P (hop _) fun _ => Pres.bind P (hpk _) fun _ => Pres.bind P (P.push _) fun _ => hpure _
  case createArray =>
    exact Pres.bind P (hop _) fun _ => Pres.bind P (P.popCount _) fun _ =>
      Pres.bind P (P.newArray _) fun _ => Pres.bind P (P.push _) fun _ => hpure _
  case createObject =>
    exact Pres.bind P (P.newObject _) fun _ => Pres.bind P (P.push _) fun _ => hpure _
  case inheritClass =>
    exact Pres.bind P (hsym _) fun _ => Pres.bind P (inheritClass_pres P _) fun _ => hpure _
  case createClosure =>
    refine Pres.bind P (hop _) fun _ => Pres.bind P (hc _) fun c => ?_
    split
    · exact Pres.bind P (captures_pres P _ _ _ _ _) fun _ => Pres.bind P (P.push _) fun _ => hpure _
    · exact Pres.err P _
  case negate =>
    exact Pres.bind P (hpk _) fun v => Pres.bind P (Pres.read P (negate_state _ _)) fun _ =>
      Pres.bind P (P.poke _ _) fun _ => hpure _
  case not =>
    exact Pres.bind P (hpk _) fun v => Pres.bind P (Pres.read P (notValue_state _)) fun _ =>
      Pres.bind P (P.poke _ _) fun _ => hpure _
  case multiply | divide | remainder | add | subtract | greaterThan | greaterThanOrEqual | lessThan
      | lessThanOrEqual | equal | notEqual | rangeInclusive | rangeExclusive =>
    exact Pres.bind P (hbin _) fun _ => hpure _
  case is =>
    exact Pres.bind P P.pop fun _ => Pres.bind P (hcls _) fun _ => Pres.bind P (hpk _) fun _ =>
      Pres.bind P (Pres.read P (testType_state _ _ _)) fun _ => Pres.bind P (P.poke _ _) fun _ => hpure _
  case jump => exact Pres.bind P (hoff _) fun _ => hpure _
  case jumpIfFalse | jumpIfTrue =>
    exact Pres.bind P (hoff _) fun _ => Pres.bind P P.pop fun _ => Pres.bind P (hb _) fun _ => hpure _
  case loadLocal =>
    exact Pres.bind P (hop _) fun _ => Pres.bind P (hfg _) fun _ => Pres.bind P (P.push _) fun _ => hpure _
  case storeLocal | assignLocal =>
    exact Pres.bind P P.pop fun _ => Pres.bind P (hop _) fun _ => Pres.bind P (P.frameSet _ _ _) fun _ =>
      Pres.bind P (P.push _) fun _ => hpure _
  case loadUpvalue =>
    exact Pres.bind P (hop _) fun _ => Pres.bind P (hup _) fun _ =>
      Pres.bind P (Pres.read P (readCell_state _)) fun _ => Pres.bind P (P.push _) fun _ => hpure _
  case storeUpvalue | assignUpvalue =>
    exact Pres.bind P (hop _) fun _ => Pres.bind P (hup _) fun _ => Pres.bind P P.pop fun _ =>
      Pres.bind P (P.writeCell _ _) fun _ => Pres.bind P (P.push _) fun _ => hpure _
  case closeUpvalue => exact Pres.bind P (hop _) fun _ => Pres.bind P (P.close _ _) fun _ => hpure _
  case storeGlobal =>
    exact Pres.bind P (hsym _) fun _ => Pres.bind P (storeGlobal_pres P _) fun _ => hpure _
  case loadGlobal =>
    exact Pres.bind P (hsym _) fun _ => Pres.bind P (loadGlobal_pres P _) fun _ => hpure _
  case loadField =>
    exact Pres.bind P (hsym _) fun _ => Pres.bind P P.pop fun _ =>
      Pres.bind P (Pres.read P (getField_state _ _ _)) fun _ => Pres.bind P (P.push _) fun _ => hpure _
  case storeField | assignField =>
    exact Pres.bind P (hsym _) fun _ => Pres.bind P P.pop fun _ => Pres.bind P P.pop fun _ =>
      setField_pres' P _ _ _ (Pres.bind P (P.push _) fun _ => hpure _)
  case loadIndex => exact Pres.bind P (loadIndex_pres P) fun _ => hpure _
  case storeIndex | assignIndex => exact Pres.bind P (setIndex_pres P _) fun _ => hpure _
  case loadMethod =>
    refine Pres.bind P (hsym _) fun _ => Pres.bind P P.pop fun _ => Pres.bind P P.pop fun _ =>
      Pres.bind P (hcls _) fun _ => Pres.bind P (Pres.read P (testType_state _ _ _)) fun b => ?_
    split
    · exact Pres.bind P (Pres.read P (getMethod_state _ _ _)) fun _ => Pres.bind P (P.push _) fun _ => hpure _
    · exact Pres.err P _
  case storeMethod =>
    refine Pres.bind P (hsym _) fun _ => Pres.bind P P.pop fun _ => Pres.bind P P.pop fun _ =>
      Pres.bind P (hcls _) fun _ => ?_
    split
    · exact Pres.bind P (P.setMethod _ _ _) fun _ => hpure _
    · exact Pres.panic P _
  case loadFieldToLocal =>
    exact Pres.bind P (hop _) fun _ => Pres.bind P (hop _) fun _ => Pres.bind P (hc _) fun _ =>
      Pres.bind P (Pres.read P (asSymbol_state _)) fun _ => Pres.bind P P.pop fun _ =>
      Pres.bind P (Pres.read P (getField_state _ _ _)) fun _ => Pres.bind P (P.frameSet _ _ _) fun _ =>
      Pres.bind P (P.push _) fun _ => hpure _
  case call => exact Pres.bind P (hop _) fun _ => Pres.bind P (hk.callFn _) fun _ => hpure _
  case callSuper =>
    exact Pres.bind P (hop _) fun _ => Pres.bind P P.pop fun _ => Pres.bind P (hcls _) fun _ =>
      Pres.bind P (hpk _) fun _ => Pres.bind P (hk.callCtor _ _ _) fun _ =>
      Pres.bind P (P.push _) fun _ => hpure _
  case loadModule =>
    exact Pres.bind P (hsym _) fun _ => Pres.bind P (loadModule_pres P hk _) fun _ => hpure _
  case assertBool =>
    refine Pres.bind P (hpk _) fun v => ?_
    split
    · exact hpure _
    · exact Pres.err P _
  case assertTypeForLocal | assertTypeOrNullForLocal =>
    exact Pres.bind P P.pop fun _ => Pres.bind P (hcls _) fun _ => Pres.bind P (hop _) fun _ =>
      Pres.bind P (hfg _) fun _ => Pres.bind P (Pres.read P (assertTypeOf_state _ _ _ _)) fun _ => hpure _
  case assertTypeAndReturn | assertTypeOrNullAndReturn =>
    exact Pres.bind P P.pop fun _ => Pres.bind P (hcls _) fun _ => Pres.bind P (hpk _) fun _ =>
      Pres.bind P (Pres.read P (assertTypeOf_state _ _ _ _)) fun _ => hpure _
  case return_ => exact hpure _

theorem finishExecute_pres (P : Prims w R) (d : Nat) : Pres R (finishExecute w d) := by
  unfold finishExecute
  refine Pres.bind P (Pres.get P) fun m => ?_
  split
  · exact Pres.panic P _
  · exact P.pop

/-- Every execution respects `R`. -/
theorem exec_pres (P : Prims w R) (n : Nat) :
    (∀ bc f ups pos, Pres R (loop w n bc f ups pos)) ∧
    (∀ bc f ups, Pres R (execute w n bc f ups)) ∧
    (∀ argc r bc ups, Pres R (callScript w n argc r bc ups)) ∧
    (∀ argc, Pres R (callFn w n argc)) ∧
    (∀ argc c o, Pres R (callCtor w n argc c o)) ∧
    (∀ bc e, Pres R (runModule w n bc e)) := by
  induction n with
  | zero =>
    refine ⟨?_, ?_, ?_, ?_, ?_, ?_⟩ <;> intros
    · unfold loop; exact Pres.timeout P
    · unfold execute; exact Pres.timeout P
    · unfold callScript; exact Pres.timeout P
    · unfold callFn; exact Pres.timeout P
    · unfold callCtor; exact Pres.timeout P
    · unfold runModule; exact Pres.timeout P
  | succ n ih =>
    obtain ⟨ihl, ihe, ihs, ihf, ihc, ihm⟩ := ih
    refine ⟨?_, ?_, ?_, ?_, ?_, ?_⟩
    · intro bc f ups pos
      unfold loop
      refine Pres.bind P (Pres.read P (fetch_state _ _)) fun o => ?_
      split
      · exact Pres.pure P _
      · refine Pres.bind P (step_pres P ⟨ihf, ihc, ihm⟩ _ _ _ _ _) fun nx => ?_
        split
        · exact ihl _ _ _ _
        · exact Pres.pure P _
    · intro bc f ups
      unfold execute
      exact Pres.bind P (Pres.get P) fun m => Pres.bind P (ihl _ _ _ _) fun _ => finishExecute_pres P _
    · intro argc r bc ups
      unfold callScript
      refine Pres.bind P (P.reserve _) fun f => ?_
      split
      · exact Pres.panic P _
      · refine Pres.bind P ?_ fun _ => Pres.bind P (ihe _ _ _) fun _ =>
          Pres.bind P (P.release _) fun _ => Pres.pure P _
        cases r with
        | some r => exact P.frameSet _ _ _
        | none => exact Pres.pure P _
    · intro argc
      unfold callFn
      refine Pres.bind P (Pres.read P (peek_state _)) fun t => ?_
      refine Pres.bind P ?_ fun _ => P.push _
      split
      · exact ihs _ _ _ _
      · exact ihs _ _ _ _
      · exact Pres.bind P (P.newObject _) fun _ => ihc _ _ _
      · refine Pres.bind P (P.popCount _) fun args => ?_
        intro m
        exact P.native _ _ m
      · exact Pres.err P _
    · intro argc c o
      unfold callCtor
      refine Pres.bind P (Pres.get P) fun m => ?_
      refine Pres.bind P ?_ fun _ => Pres.bind P P.pop fun _ => Pres.pure P _
      split
      · exact Pres.bind P (P.poke _ _) fun _ => Pres.bind P (ihf _) fun _ => Pres.read P (peek_state _)
      · split
        · exact Pres.bind P (P.popCount _) fun _ => Pres.pure P _
        · split
          · exact Pres.err P _
          · exact Pres.pure P _
    · intro bc e
      unfold runModule
      exact Pres.bind P (P.reserve _) fun f => Pres.bind P (P.memSet _ _) fun _ =>
        Pres.bind P (ihe _ _ _) fun _ => Pres.bind P (P.release _) fun _ => Pres.pure P _

theorem callFn_pres (P : Prims w R) (n argc : Nat) : Pres R (callFn w n argc) := (exec_pres P n).2.2.2.1 _

theorem run_pres (P : Prims w R) (n : Nat) (bc : Bytecode) : Pres R (run w n bc) :=
  Pres.bind P (P.reserve _) fun _ => Pres.bind P ((exec_pres P n).2.1 _ _ _) fun _ =>
    Pres.bind P (P.release _) fun _ => Pres.pure P _

end

/-! ## A relation that only looks at parts the stack operations leave alone -/

/-- The stack operations change nothing but memory and stack pointer. -/
structure SameRest (a b : VM) : Prop where
  heap : a.heap = b.heap
  cells : a.cells = b.cells
  openUps : a.openUps = b.openUps
  globals : a.globals = b.globals
  modules : a.modules = b.modules

theorem SameRest.refl (m : VM) : SameRest m m := ⟨rfl, rfl, rfl, rfl, rfl⟩

theorem push_rest (v : Value) (m : VM) : SameRest m (push v m).2 := by
  unfold push; split <;> exact ⟨rfl, rfl, rfl, rfl, rfl⟩
theorem pop_rest (m : VM) : SameRest m (pop m).2 := by
  unfold pop; split <;> exact ⟨rfl, rfl, rfl, rfl, rfl⟩
theorem poke_rest (i : Nat) (v : Value) (m : VM) : SameRest m (poke i v m).2 := by
  unfold poke; split <;> exact ⟨rfl, rfl, rfl, rfl, rfl⟩
theorem popCount_rest (n : Nat) (m : VM) : SameRest m (popCount n m).2 := by
  unfold popCount; split <;> exact ⟨rfl, rfl, rfl, rfl, rfl⟩
theorem swap_rest (m : VM) : SameRest m (swap m).2 := by
  unfold swap; split <;> exact ⟨rfl, rfl, rfl, rfl, rfl⟩
theorem reserve_rest (w : World) (n : Nat) (m : VM) : SameRest m (reserveSlots w n m).2 := by
  unfold reserveSlots; dsimp only; split <;> exact ⟨rfl, rfl, rfl, rfl, rfl⟩
theorem release_rest (w : World) (f : Frame) (m : VM) : SameRest m (releaseFrame w f m).2 := by
  unfold releaseFrame
  split
  · split
    · exact ⟨rfl, rfl, rfl, rfl, rfl⟩
    · dsimp only; split <;> exact ⟨rfl, rfl, rfl, rfl, rfl⟩
  · exact ⟨rfl, rfl, rfl, rfl, rfl⟩
theorem frameSet_rest (f : Frame) (i : Nat) (v : Value) (m : VM) : SameRest m (frameSet f i v m).2 := by
  unfold frameSet; split <;> exact ⟨rfl, rfl, rfl, rfl, rfl⟩
theorem memSet_rest (i : Nat) (v : Value) (m : VM) : SameRest m (memSet i v m).2 := by
  unfold memSet; split <;> exact ⟨rfl, rfl, rfl, rfl, rfl⟩

end Dice
