import Verif.VmMono

/-!
# C30, C31: globals and modules
-/

namespace Dice

/-! ## C30 -/

/-- Every global of `a` has the same value in `b`. -/
def GlobalsKept (a b : VM) : Prop := ∀ k v, a.globals.get k = some v → b.globals.get k = some v

/-- Every module registered in `a` is registered in `b` with the same export object. -/
def ModulesKept (a b : VM) : Prop := ∀ k v, a.modules.get k = some v → b.modules.get k = some v

theorem ValueMap.get_insert (m : ValueMap) (k k' : String) (v : Value) :
    (m.insert k v).get k' = if k' = k then some v else m.get k' := by
  unfold ValueMap.insert ValueMap.get
  rw [List.lookup_cons]
  by_cases h : k' = k
  · rw [if_pos h, beq_iff_eq.mpr h]
  · rw [if_neg h, beq_eq_false_iff_ne.mpr h]

theorem get_insert_kept {m : ValueMap} {k k' : String} {v x : Value} (hn : m.get k = none)
    (h : m.get k' = some x) : (m.insert k v).get k' = some x := by
  rw [ValueMap.get_insert, if_neg (by intro e; rw [e, hn] at h; exact nomatch h)]
  exact h

theorem captureLocal_rest (i : Nat) (m : VM) :
    (captureLocal i m).2.heap = m.heap ∧ (captureLocal i m).2.globals = m.globals ∧
    (captureLocal i m).2.modules = m.modules ∧ (captureLocal i m).2.mem = m.mem ∧
    (captureLocal i m).2.ptr = m.ptr := by
  unfold captureLocal
  split <;> exact ⟨rfl, rfl, rfl, rfl, rfl⟩

theorem bind_state {α β : Type} {Q : VM → VM → Prop} (ht : ∀ a b c, Q a b → Q b c → Q a c) {x : V α}
    {f : α → V β} (hx : ∀ m, Q m (x m).2) (hf : ∀ a m, Q m (f a m).2) (m : VM) : Q m ((x >>= f) m).2 := by
  show Q m (V.bind x f m).2
  have h := hx m
  unfold V.bind
  generalize x m = r at h
  obtain ⟨o, m1⟩ := r
  cases o with
  | ok a => exact ht _ _ _ h (hf a m1)
  | err _ => exact h
  | panic _ => exact h
  | timeout => exact h

/-- Parts of the machine that the capture instructions leave alone. -/
def SameUser (a b : VM) : Prop := b.heap = a.heap ∧ b.globals = a.globals ∧ b.modules = a.modules

theorem SameUser.trans (a b c : VM) (h1 : SameUser a b) (h2 : SameUser b c) : SameUser a c :=
  ⟨h2.1.trans h1.1, h2.2.1.trans h1.2.1, h2.2.2.trans h1.2.2⟩

theorem SameRest.user {a b : VM} (h : SameRest a b) : SameUser a b :=
  ⟨h.heap.symm, h.globals.symm, h.modules.symm⟩

theorem closeCell_user (i : Nat) (v : Value) (m : VM) : SameUser m (closeCell i v m).2 := by
  unfold closeCell
  split <;> exact ⟨rfl, rfl, rfl⟩

theorem closeUpvalue_user (f : Frame) (i : Nat) (m : VM) : SameUser m (closeUpvalue f i m).2 :=
  bind_state SameUser.trans (fun m => by rw [frameGet_state]; exact ⟨rfl, rfl, rfl⟩)
    (fun v m => bind_state SameUser.trans (fun m => (frameSet_rest f i .null m).user)
      (fun _ m => closeCell_user _ v m) m) m

theorem writeCell_user (a : Nat) (v : Value) (m : VM) : SameUser m (writeCell a v m).2 := by
  unfold writeCell
  split
  · exact (memSet_rest _ _ _).user
  · exact ⟨rfl, rfl, rfl⟩
  · exact ⟨rfl, rfl, rfl⟩

/-- Relations that depend only on the heap, globals and modules need no proof for stack and captures. -/
theorem Prims.ofUser {w : World} {R : VM → VM → Prop} (hu : ∀ a b, SameUser a b → R a b)
    (htrans : ∀ a b c, R a b → R b c → R a c)
    (newArray : ∀ xs, Pres R (onHeap fun h => h.newArray xs))
    (newObject : ∀ c, Pres R (onHeap fun h => h.newObject c))
    (newClass : ∀ m name base b, m.heap.classes[base]? = some b →
      R m { m with heap := (m.heap.classWithBase name base b).2 })
    (setField : ∀ m v o key x, m.heap.asObject v = some o → R m { m with heap := m.heap.setField o key x })
    (setMethod : ∀ c key x, Pres R (onHeap fun h => ((), h.setMethod c key x)))
    (setArray : ∀ m a (arr : Arr) elements, m.heap.arrays[a]? = some arr →
      R m { m with heap := { m.heap with arrays := m.heap.arrays.set a { arr with elements := elements } } })
    (native : ∀ i args m, R m { m with heap := (w.native i args m.heap).2 })
    (global : ∀ m name v, m.globals.get name = none → R m { m with globals := m.globals.insert name v })
    (module : ∀ m name v, m.modules.get name = none → R m { m with modules := m.modules.insert name v }) :
    Prims w R where
  refl m := hu _ _ ⟨rfl, rfl, rfl⟩
  trans := htrans
  push v m := hu _ _ (push_rest v m).user
  pop m := hu _ _ (pop_rest m).user
  poke i v m := hu _ _ (poke_rest i v m).user
  popCount n m := hu _ _ (popCount_rest n m).user
  swap m := hu _ _ (swap_rest m).user
  reserve n m := hu _ _ (reserve_rest w n m).user
  release f m := hu _ _ (release_rest w f m).user
  frameSet f i v m := hu _ _ (frameSet_rest f i v m).user
  memSet i v m := hu _ _ (memSet_rest i v m).user
  newArray := newArray
  newObject := newObject
  newClass := newClass
  setField := setField
  setMethod := setMethod
  setArray := setArray
  native := native
  capture i m := hu _ _ ⟨(captureLocal_rest i m).1, (captureLocal_rest i m).2.1, (captureLocal_rest i m).2.2.1⟩
  close f i m := hu _ _ (closeUpvalue_user f i m)
  writeCell a v m := hu _ _ (writeCell_user a v m)
  global := global
  module := module

theorem globalsKept_prims (w : World) : Prims w GlobalsKept :=
  Prims.ofUser (fun _ _ h k v hk => by rw [h.2.1]; exact hk)
    (fun _ _ _ h1 h2 k v hk => h2 k v (h1 k v hk))
    (fun _ _ _ _ hk => hk) (fun _ _ _ _ hk => hk) (fun _ _ _ _ _ _ _ hk => hk) (fun _ _ _ _ _ _ _ _ hk => hk)
    (fun _ _ _ _ _ _ hk => hk) (fun _ _ _ _ _ _ _ hk => hk) (fun _ _ _ _ _ hk => hk)
    (fun _ _ _ hn _ _ hk => get_insert_kept hn hk) (fun _ _ _ _ _ _ hk => hk)

theorem modulesKept_prims (w : World) : Prims w ModulesKept :=
  Prims.ofUser (fun _ _ h k v hk => by rw [h.2.2]; exact hk)
    (fun _ _ _ h1 h2 k v hk => h2 k v (h1 k v hk))
    (fun _ _ _ _ hk => hk) (fun _ _ _ _ hk => hk) (fun _ _ _ _ _ _ _ hk => hk) (fun _ _ _ _ _ _ _ _ hk => hk)
    (fun _ _ _ _ _ _ hk => hk) (fun _ _ _ _ _ _ _ hk => hk) (fun _ _ _ _ _ hk => hk)
    (fun _ _ _ _ _ _ hk => hk) (fun _ _ _ hn _ _ hk => get_insert_kept hn hk)

/-- A history of the runtime: scripts run one after the other, each with its own budget, whatever their
outcomes. -/
def runAll (w : World) : List (Nat × Bytecode) → VM → VM
  | [], m => m
  | (n, bc) :: rest, m => runAll w rest (run w n bc m).2

/-- **C30**: a global keeps its value through every execution, also one that fails. -/
theorem global_kept (w : World) (history : List (Nat × Bytecode)) {m : VM} {name : String} {v : Value}
    (h : m.globals.get name = some v) : (runAll w history m).globals.get name = some v := by
  induction history generalizing m with
  | nil => exact h
  | cons x rest ih => exact ih (run_pres (globalsKept_prims w) x.1 x.2 m name v h)

/-- **C30**: a store to an undefined global succeeds, and then the global has that value and all others are as
before. -/
theorem storeGlobal_fresh {m : VM} {p : Nat} {name : String} (hp : m.ptr = p + 1) (hb : p < maxStack)
    (hn : m.globals.get name = none) :
    ∃ m', storeGlobal name m = (.ok (), m') ∧ m'.globals.get name = some (m.mem p) ∧
      (∀ other, other ≠ name → m'.globals.get other = m.globals.get other) ∧ m'.ptr = p := by
  refine ⟨{ m with mem := upd m.mem p .null, ptr := p, globals := m.globals.insert name (m.mem p) },
    ?_, ?_, ?_, ?_⟩
  · unfold storeGlobal
    rw [bind_ok (pop_eval hp hb)]
    unfold defineGlobal
    simp only [hn]
  · rw [ValueMap.get_insert, if_pos rfl]
  · intro other ho
    rw [ValueMap.get_insert, if_neg ho]
  · rfl

/-- **C30**: a store to a defined global is an error and changes no global. -/
theorem storeGlobal_again {m : VM} {p : Nat} {name : String} {v : Value} (hp : m.ptr = p + 1)
    (hb : p < maxStack) (hn : m.globals.get name = some v) :
    ∃ m', storeGlobal name m = (.err (.globalDefined name), m') ∧ m'.globals = m.globals := by
  refine ⟨{ m with mem := upd m.mem p .null, ptr := p }, ?_, ?_⟩
  · unfold storeGlobal
    rw [bind_ok (pop_eval hp hb)]
    unfold defineGlobal
    simp only [hn]
  · rfl

/-- **C30**: a read pushes the value of the global. -/
theorem loadGlobal_defined {m : VM} {name : String} {v : Value} (hb : m.ptr < maxStack)
    (hn : m.globals.get name = some v) :
    loadGlobal name m = (.ok (), { m with mem := upd m.mem m.ptr v, ptr := m.ptr + 1 }) := by
  unfold loadGlobal
  rw [bind_ok (show globalValue name m = (.ok v, m) from by unfold globalValue; rw [hn])]
  exact push_eval v hb

/-- **C30**: a read of an undefined global is an error. -/
theorem loadGlobal_undefined {m : VM} {name : String} (hn : m.globals.get name = none) :
    loadGlobal name m = (.err (.globalUndefined name), m) := by
  unfold loadGlobal
  exact bind_err (show globalValue name m = (.err (.globalUndefined name), m) from by
    unfold globalValue; rw [hn])

/-- **C30**, put together: store, run anything, read. -/
theorem global_write_once (w : World) (history : List (Nat × Bytecode)) {m : VM} {p : Nat} {name : String}
    (hp : m.ptr = p + 1) (hb : p < maxStack) (hn : m.globals.get name = none) :
    ∃ m1, storeGlobal name m = (.ok (), m1) ∧
      (∀ q : VM, q.globals = (runAll w history m1).globals → q.ptr < maxStack →
        loadGlobal name q = (.ok (), { q with mem := upd q.mem q.ptr (m.mem p), ptr := q.ptr + 1 })) ∧
      (∀ q : VM, q.globals = (runAll w history m1).globals → 0 < q.ptr → q.ptr ≤ maxStack →
        ∃ q', storeGlobal name q = (.err (.globalDefined name), q') ∧ q'.globals = q.globals) := by
  obtain ⟨m1, h1, h2, -, -⟩ := storeGlobal_fresh hp hb hn
  have hk := global_kept w history h2
  refine ⟨m1, h1, ?_, ?_⟩
  · intro q hq hb
    exact loadGlobal_defined hb (by rw [hq]; exact hk)
  · intro q hq h0 hb
    exact storeGlobal_again (p := q.ptr - 1) (by omega) (by omega) (by rw [hq]; exact hk)

example : ∃ m1, storeGlobal "x" { mem := fun _ => .int 7, ptr := 1 } = (.ok (), m1) ∧
    m1.globals.get "x" = some (.int 7) := by
  obtain ⟨m1, h1, h2, -⟩ := storeGlobal_fresh (m := { mem := fun _ => .int 7, ptr := 1 }) (p := 0) (name := "x")
    rfl (by decide) rfl
  exact ⟨m1, h1, h2⟩

/-! ## C31 -/

/-- **C31**: a registered module stays registered with the same export object through every history. -/
theorem module_kept (w : World) (history : List (Nat × Bytecode)) {m : VM} {name : String} {v : Value}
    (h : m.modules.get name = some v) : (runAll w history m).modules.get name = some v := by
  induction history generalizing m with
  | nil => exact h
  | cons x rest ih => exact ih (run_pres (modulesKept_prims w) x.1 x.2 m name v h)

/-- **C31**: the first import registers a new export object and starts the body (`runModule`) in a state where
the module is already registered; whatever happens there, afterwards the module is registered with that
object. -/
theorem module_first (w : World) (k : Calls) (hk : CallsPres ModulesKept k) {m : VM} {name : String}
    (hn : m.modules.get name = none) :
    ∃ v m0, m0.modules.get name = some v ∧
      (∀ bc, w.loader name = .ok bc → moduleValue w k name m = k.runModule bc v m0) ∧
      (∀ e, w.loader name = .error e → moduleValue w k name m = (.err e, m0)) ∧
      (moduleValue w k name m).2.modules.get name = some v := by
  let r := m.heap.newObject w.moduleClass
  let m0 : VM := { m with heap := r.2, modules := m.modules.insert name r.1 }
  have h0 : m0.modules.get name = some r.1 := by
    show (m.modules.insert name r.1).get name = _
    rw [ValueMap.get_insert, if_pos rfl]
  have e1 : ∀ bc, w.loader name = .ok bc → moduleValue w k name m = k.runModule bc r.1 m0 := by
    intro bc hl
    unfold moduleValue
    rw [hn]
    dsimp only
    rw [hl]
  have e2 : ∀ e, w.loader name = .error e → moduleValue w k name m = (.err e, m0) := by
    intro e hl
    unfold moduleValue
    rw [hn]
    dsimp only
    rw [hl]
  refine ⟨r.1, m0, h0, e1, e2, ?_⟩
  cases hl : w.loader name with
  | error e =>
    rw [e2 e hl]
    exact h0
  | ok bc =>
    rw [e1 bc hl]
    exact hk.runModule bc r.1 m0 name r.1 h0

/-- **C31**: a later import delivers the registered object and changes nothing else; it does not depend on
`runModule`, that is, it does not start the body. -/
theorem module_again (w : World) (k : Calls) {m : VM} {name : String} {v : Value}
    (h : m.modules.get name = some v) : moduleValue w k name m = (.ok v, m) := by
  unfold moduleValue
  rw [h]

/-! ### The body is never started again

A registered module is never started again by any execution, at any depth: exchanging the module's code
for arbitrary other code (or a load error) changes nothing. -/

/-- The surroundings with another loader. -/
def World.withLoader (w : World) (l : String → Except RtErr Bytecode) : World := { w with loader := l }

/-- `x` and `x'` do the same on states where `name` is registered. -/
def AgreeOn {α : Type} (name : String) (x x' : V α) : Prop :=
  ∀ m v, m.modules.get name = some v → x' m = x m

section
variable {w : World} {name : String}

theorem AgreeOn.refl {α : Type} (x : V α) : AgreeOn name x x := fun _ _ _ => rfl

theorem AgreeOn.bind {α β : Type} {x x' : V α} {f f' : α → V β} (hp : Pres ModulesKept x)
    (hx : AgreeOn name x x') (hf : ∀ a, AgreeOn name (f a) (f' a)) :
    AgreeOn name (x >>= f) (x' >>= f') := by
  intro m v h
  show V.bind x' f' m = V.bind x f m
  unfold V.bind
  rw [hx m v h]
  have hm := hp m name v h
  generalize x m = r at hm
  obtain ⟨o, m1⟩ := r
  cases o with
  | ok a => exact hf a m1 v hm
  | err _ => rfl
  | panic _ => rfl
  | timeout => rfl

structure CallsAgree (name : String) (k k' : Calls) : Prop where
  callFn : ∀ n, AgreeOn name (k.callFn n) (k'.callFn n)
  callCtor : ∀ n c o, AgreeOn name (k.callCtor n c o) (k'.callCtor n c o)
  runModule : ∀ b e, AgreeOn name (k.runModule b e) (k'.runModule b e)

theorem AgreeOn.skip {α β : Type} {x : V α} {f f' : α → V β} (hp : Pres ModulesKept x)
    (hf : ∀ a, AgreeOn name (f a) (f' a)) : AgreeOn name (x >>= f) (x >>= f') :=
  AgreeOn.bind hp (AgreeOn.refl _) hf

theorem binaryOp_agree {cf cf' : Nat → V Unit} (h : ∀ n, AgreeOn name (cf n) (cf' n)) (o : Opcode) :
    AgreeOn name (binaryOp w cf o) (binaryOp w cf' o) := by
  have P := modulesKept_prims w
  unfold binaryOp
  refine AgreeOn.skip P.pop fun _ => AgreeOn.skip (Pres.read P (peek_state _)) fun _ => ?_
  split
  · exact AgreeOn.refl _
  · exact AgreeOn.refl _
  · exact AgreeOn.refl _
  · exact AgreeOn.refl _
  · exact AgreeOn.refl _
  · unfold callBinaryOp
    refine AgreeOn.skip P.pop fun _ => AgreeOn.skip (Pres.read P (getField_state _ _ _)) fun _ => ?_
    split
    · exact AgreeOn.skip (Pres.read P (operatorFn_state _)) fun _ => AgreeOn.skip (P.push _) fun _ =>
        AgreeOn.skip (P.push _) fun _ => AgreeOn.skip (P.push _) fun _ => h _
    · exact AgreeOn.skip (P.push _) fun _ => AgreeOn.skip (P.push _) fun _ => h _

theorem moduleValue_agree {l : String → Except RtErr Bytecode} (hl : ∀ n, n ≠ name → l n = w.loader n)
    {k k' : Calls} (h : CallsAgree name k k') (n : String) :
    AgreeOn name (moduleValue w k n) (moduleValue (w.withLoader l) k' n) := by
  intro m v hm
  unfold moduleValue
  cases hg : m.modules.get n with
  | some _ => rfl
  | none =>
    have hne : n ≠ name := by
      intro e
      rw [e, hm] at hg
      exact nomatch hg
    dsimp only
    show (match l n with
      | .error e => _
      | .ok bc => _) = _
    rw [hl n hne]
    cases w.loader n with
    | error e => rfl
    | ok bc => exact h.runModule _ _ _ v (get_insert_kept hg hm)

theorem step_agree {l : String → Except RtErr Bytecode} (hl : ∀ n, n ≠ name → l n = w.loader n)
    {k k' : Calls} (hk : CallsPres ModulesKept k) (h : CallsAgree name k k') (bc : Bytecode) (f : Frame)
    (ups : Option (List Nat)) (o : Opcode) (pos : Nat) :
    AgreeOn name (step w k bc f ups o pos) (step (w.withLoader l) k' bc f ups o pos) := by
  have P := modulesKept_prims w
  have hbin : ∀ o, AgreeOn name (binaryOp w k.callFn o >>= fun _ => Pure.pure (Next.goto pos))
      (binaryOp w k'.callFn o >>= fun _ => Pure.pure (Next.goto pos)) := fun o =>
    AgreeOn.bind (binaryOp_pres P hk.callFn o) (binaryOp_agree h.callFn o) fun _ => AgreeOn.refl _
  cases o
  case multiply | divide | remainder | add | subtract | greaterThan | greaterThanOrEqual | lessThan
      | lessThanOrEqual | equal | notEqual | rangeInclusive | rangeExclusive => exact hbin _
  case call =>
    exact AgreeOn.skip (Pres.read P (operand_state _ _)) fun _ =>
      AgreeOn.bind (hk.callFn _) (h.callFn _) fun _ => AgreeOn.refl _
  case callSuper =>
    exact AgreeOn.skip (Pres.read P (operand_state _ _)) fun _ => AgreeOn.skip P.pop fun _ =>
      AgreeOn.skip (Pres.read P (asClass_state _)) fun _ => AgreeOn.skip (Pres.read P (peek_state _)) fun _ =>
      AgreeOn.bind (hk.callCtor _ _ _) (h.callCtor _ _ _) fun _ => AgreeOn.refl _
  case loadModule =>
    refine AgreeOn.skip (symbolOperand_pres P _ _) fun n => ?_
    have hm : Pres ModulesKept (moduleValue w k n) := by
      intro m
      unfold moduleValue
      split
      · exact P.refl m
      · rename_i hn
        have h3 := P.trans _ _ _ (P.newObject w.moduleClass m) (P.module _ n (m.heap.newObject w.moduleClass).1
          (show (onHeap (fun h => h.newObject w.moduleClass) m).2.modules.get n = none from hn))
        dsimp only
        split
        · exact h3
        · exact P.trans _ _ _ h3 (hk.runModule _ _ _)
    exact AgreeOn.bind (loadModule_pres P hk n)
      (AgreeOn.bind hm (moduleValue_agree hl h n) fun _ => AgreeOn.refl _) fun _ => AgreeOn.refl _
  all_goals exact AgreeOn.refl _

theorem exec_agree {l : String → Except RtErr Bytecode} (hl : ∀ n, n ≠ name → l n = w.loader n) (n : Nat) :
    (∀ bc f ups pos, AgreeOn name (loop w n bc f ups pos) (loop (w.withLoader l) n bc f ups pos)) ∧
    (∀ bc f ups, AgreeOn name (execute w n bc f ups) (execute (w.withLoader l) n bc f ups)) ∧
    (∀ argc r bc ups, AgreeOn name (callScript w n argc r bc ups) (callScript (w.withLoader l) n argc r bc ups)) ∧
    (∀ argc, AgreeOn name (callFn w n argc) (callFn (w.withLoader l) n argc)) ∧
    (∀ argc c o, AgreeOn name (callCtor w n argc c o) (callCtor (w.withLoader l) n argc c o)) ∧
    (∀ bc e, AgreeOn name (runModule w n bc e) (runModule (w.withLoader l) n bc e)) := by
  have P := modulesKept_prims w
  induction n with
  | zero =>
    refine ⟨?_, ?_, ?_, ?_, ?_, ?_⟩ <;> intros <;> intro m v hm
    · unfold loop; rfl
    · unfold execute; rfl
    · unfold callScript; rfl
    · unfold callFn; rfl
    · unfold callCtor; rfl
    · unfold runModule; rfl
  | succ n ih =>
    obtain ⟨ihl, ihe, ihs, ihf, ihc, ihm⟩ := ih
    obtain ⟨pl, pe, ps, pf, pc, pm⟩ := exec_pres P n
    refine ⟨?_, ?_, ?_, ?_, ?_, ?_⟩
    · intro bc f ups pos
      rw [loop, loop]
      refine AgreeOn.skip (Pres.read P (fetch_state _ _)) fun o => ?_
      cases o with
      | none => exact AgreeOn.refl _
      | some o =>
        refine AgreeOn.bind (step_pres P ⟨pf, pc, pm⟩ _ _ _ _ _)
          (step_agree hl ⟨pf, pc, pm⟩ ⟨ihf, ihc, ihm⟩ _ _ _ _ _) fun nx => ?_
        cases nx with
        | goto p => exact ihl _ _ _ _
        | stop => exact AgreeOn.refl _
    · intro bc f ups
      rw [execute, execute]
      exact AgreeOn.skip (Pres.get P) fun m => AgreeOn.bind (pl _ _ _ _) (ihl _ _ _ _) fun _ => AgreeOn.refl _
    · intro argc r bc ups
      rw [callScript, callScript]
      refine AgreeOn.bind (P.reserve _) (AgreeOn.refl _) fun f => ?_
      split
      · exact AgreeOn.refl _
      · refine AgreeOn.skip ?_ fun _ => AgreeOn.bind (pe _ _ _) (ihe _ _ _) fun _ => AgreeOn.refl _
        cases r with
        | some r => exact P.frameSet _ _ _
        | none => exact Pres.pure P _
    · intro argc
      rw [callFn, callFn]
      refine AgreeOn.skip (Pres.read P (peek_state _)) fun t => ?_
      generalize callTarget t = x
      obtain ⟨v, r⟩ := x
      cases v
      case fnClosure => exact AgreeOn.bind (ps _ _ _ _) (ihs _ _ _ _) fun _ => AgreeOn.refl _
      case fnScript => exact AgreeOn.bind (ps _ _ _ _) (ihs _ _ _ _) fun _ => AgreeOn.refl _
      case cls =>
        exact AgreeOn.bind (Pres.bind P (P.newObject _) fun _ => pc _ _ _)
          (AgreeOn.skip (P.newObject _) fun _ => ihc _ _ _) fun _ => AgreeOn.refl _
      all_goals exact AgreeOn.refl _
    · intro argc c o
      rw [callCtor, callCtor]
      refine AgreeOn.skip (Pres.get P) fun m => ?_
      cases m.heap.method c "new" with
      | some new =>
        exact AgreeOn.bind
          (Pres.bind P (P.poke _ _) fun _ => Pres.bind P (pf _) fun _ => Pres.read P (peek_state _))
          (AgreeOn.skip (P.poke _ _) fun _ => AgreeOn.bind (pf _) (ihf _) fun _ => AgreeOn.refl _)
          fun _ => AgreeOn.refl _
      | none => exact AgreeOn.refl _
    · intro bc e
      rw [runModule, runModule]
      exact AgreeOn.bind (P.reserve _) (AgreeOn.refl _) fun f => AgreeOn.skip (P.memSet _ _) fun _ =>
        AgreeOn.bind (pe _ _ _) (ihe _ _ _) fun _ => AgreeOn.refl _

end

/-- **C31**: once a module is registered, no execution ever runs its body again: any other code (or a load
error) in its place gives the same result and the same final state. -/
theorem module_not_restarted (w : World) {l : String → Except RtErr Bytecode} {name : String}
    (hl : ∀ n, n ≠ name → l n = w.loader n) (n : Nat) (bc : Bytecode) {m : VM} {v : Value}
    (h : m.modules.get name = some v) : run (w.withLoader l) n bc m = run w n bc m :=
  AgreeOn.bind (name := name) ((modulesKept_prims w).reserve _) (AgreeOn.refl _)
    (fun _ => AgreeOn.bind ((exec_pres (modulesKept_prims w) n).2.1 _ _ _) ((exec_agree hl n).2.1 _ _ _)
      fun _ => AgreeOn.refl _) m v h

/-- **C31**, also while the body is being run for the first time (import cycles): `module_first` runs the
body in a state with the module registered, so this applies inside. -/
theorem module_not_restarted_inside (w : World) {l : String → Except RtErr Bytecode} {name : String}
    (hl : ∀ n, n ≠ name → l n = w.loader n) (n : Nat) (bc : Bytecode) (export_ : Value) {m : VM} {v : Value}
    (h : m.modules.get name = some v) :
    runModule (w.withLoader l) n bc export_ m = runModule w n bc export_ m :=
  (exec_agree hl n).2.2.2.2.2 bc export_ m v h

/-- A module that fails to load stays registered: the next import gets an empty object instead of the
error.  (Both `load_module` and the module body may fail after the registration, mod.rs:840-846.) -/
theorem failed_module_registered (w : World) (k k' : Calls) {m : VM} {name : String} {e : RtErr}
    (hn : m.modules.get name = none) (he : w.loader name = .error e) :
    ∃ v, (moduleValue w k name m).1 = .err e ∧
      moduleValue w k' name (moduleValue w k name m).2 = (.ok v, (moduleValue w k name m).2) := by
  refine ⟨(m.heap.newObject w.moduleClass).1, ?_, ?_⟩
  · unfold moduleValue
    rw [hn]
    dsimp only
    rw [he]
  · apply module_again
    unfold moduleValue
    rw [hn]
    dsimp only
    rw [he]
    show (m.modules.insert name _).get name = _
    rw [ValueMap.get_insert, if_pos rfl]

/-- A failing load, and the import after it. -/
example (w : World) (k : Calls) (hw : w.loader "m" = .error (.load "m")) :
    (moduleValue w k "m" {}).1 = .err (.load "m") ∧
    (moduleValue w k "m" (moduleValue w k "m" {}).2).1 = .ok (.object 0) := by
  obtain ⟨v, h1, h2⟩ := failed_module_registered w k k (m := {}) rfl hw
  refine ⟨h1, ?_⟩
  unfold moduleValue
  simp only [show (({} : VM).modules.get "m") = none from rfl, hw]
  rfl

end Dice
