import Verif.StoredRange

/-!
# Results of the prelude

C63 for all values, references included: `Ok`, `Err`, `!!` and `map`, by evaluating the classes of the prelude symbolically
after loading it.  `SimPrelude` carries the theorems to the machine.
-/

namespace Dice

open Sim Natives
open Src (SEnv State Out S Jump)

/-! ## The classes -/

/-- prelude.dm:60-63, the constructor of `Result`. -/
def resultNew (ρ : SEnv) : Src.Closure :=
  ⟨.constructor, [⟨"self", none⟩, ⟨"is_ok", some ⟨"Bool", false⟩⟩, ⟨"result", some ⟨"Any", true⟩⟩], none,
    .block [.assign .assign (.field (.ident "self") "is_ok") (.ident "is_ok")]
      (some (.assign .assign (.field (.ident "self") "result") (.ident "result"))), ρ⟩

/-- prelude.dm:75-77 and 81-83, the constructors of `Ok` and `Err`. -/
def caseNew (ok : Bool) (ρ : SEnv) : Src.Closure :=
  ⟨.constructor, [⟨"self", none⟩, ⟨"result", none⟩], none, .block [] (some (.superCall [.bool ok, .ident "result"])), ρ⟩

/-- prelude.dm:65-71, the method `map`. -/
def resultMap (ρ : SEnv) : Src.Closure :=
  ⟨.method, [⟨"self", none⟩, ⟨"map_fn", some ⟨"Function", false⟩⟩], some ⟨"Result", false⟩,
    .block [] (some (.ifExpr (.field (.ident "self") "is_ok")
      (.block [] (some (.call (.ident "Ok") [.call (.ident "map_fn") [.field (.ident "self") "result"]])))
      (some (.block [] (some (.call (.ident "Err") [.field (.ident "self") "result"])))))), ρ⟩

/-- `Result`, `Ok` and `Err`: the class `base` and the classes `cls true` and `cls false`. -/
structure HasResults (w : World) (σ : State) (base : Nat) (cls : Bool → Nat) : Prop where
  any : σ.globals.get "Any" = some (.cls w.anyClass)
  bool : ∃ c, σ.globals.get "Bool" = some (.cls c) ∧ ∀ b, σ.heap.isOfType w (.bool b) c = true
  function : ∃ c, σ.globals.get "Function" = some (.cls c)
  new : ∃ k ρ, σ.heap.method base "new" = some (Src.closure k) ∧ σ.fns[k]? = some (resultNew ρ) ∧ ρ.lookup "Bool" = none ∧ ρ.lookup "Any" = none
  case : ∀ ok, ∃ k ρ l, σ.heap.method (cls ok) "new" = some (Src.closure k) ∧ σ.fns[k]? = some (caseNew ok ρ) ∧
    ρ.lookup "super" = some l ∧ σ.store[l]? = some (some (.cls base))
  map : ∀ ok, ∃ (k : Nat) (ρ : SEnv) (l : Bool → Nat) (l' : Nat), σ.heap.method (cls ok) "map" = some (Src.closure k) ∧ σ.fns[k]? = some (resultMap ρ) ∧
    (∀ b : Bool, ρ.lookup (if b then "Ok" else "Err") = some (l b) ∧ σ.store[l b]? = some (some (.cls (cls b)))) ∧
    ρ.lookup "Result" = some l' ∧ σ.store[l']? = some (some (.cls base)) ∧ ρ.lookup "Function" = none
  sub : ∀ ok, σ.heap.isClass (cls ok) base = true

/-- The value is no reference to an object that does not exist. -/
def Heap.Exists (h : Heap) (v : Value) : Prop := ∀ o, v = .object o → o < h.objects.length

theorem isOfType_add {w : World} {h : Heap} {v : Value} (hv : h.Exists v) (c : Nat) (fs : ValueMap) (d : Nat) :
    (h.addObject c fs).isOfType w v d = h.isOfType w v d := by
  have ha : (h.addObject c fs).asObject v = h.asObject v := by
    cases v with
    | object o =>
      show (h.objects ++ _)[o]? = h.objects[o]?
      rw [List.getElem?_append_left (hv o rfl)]
    | _ => rfl
  unfold Heap.isOfType Heap.classOf
  rw [ha]
  rfl

/-- The value can be in a result: it is null or an instance of `Any`. -/
def Storable (w : World) (h : Heap) (v : Value) : Prop := h.Exists v ∧ (v.isNull = true ∨ h.isOfType w v w.anyClass = true)

/-- The state after making a result. -/
def made (c : Nat) (ok : Bool) (v : Value) (σ : State) : State :=
  { σ with
    store := σ.store ++ [some (.object σ.heap.objects.length), some v, some (.object σ.heap.objects.length), some (.bool ok), some v]
    heap := σ.heap.addObject c [("result", v), ("is_ok", .bool ok)] }

theorem resultNew_body {w : World} {call : Src.Calls} {n : Nat} {σ : State} {h : Heap} {c cb : Nat} {ρ : SEnv} {ok : Bool} {v : Value}
    (hh : σ.heap = h.addObject c []) (hv : Storable w h v) (b1 : σ.globals.get "Bool" = some (.cls cb)) (b2 : h.isOfType w (.bool ok) cb = true)
    (a1 : σ.globals.get "Any" = some (.cls w.anyClass)) (l1 : ρ.lookup "Bool" = none) (l2 : ρ.lookup "Any" = none) :
    Src.invoke w call n (resultNew ρ) (.object h.objects.length) [.bool ok, v] σ =
      (.ok (.object h.objects.length), { σ with
        store := σ.store ++ [some (.object h.objects.length), some (.bool ok), some v]
        heap := h.addObject c [("result", v), ("is_ok", .bool ok)] }) := by
  have e1 : (σ.store ++ [some (.object h.objects.length), some (.bool ok), some v])[σ.store.length]? = some (some (.object h.objects.length)) := by simp
  have e2 : (σ.store ++ [some (.object h.objects.length), some (.bool ok), some v])[σ.store.length + 1]? = some (some (.bool ok)) := by simp
  have e3 : (σ.store ++ [some (.object h.objects.length), some (.bool ok), some v])[σ.store.length + 2]? = some (some v) := by simp
  have e5 : (σ.store ++ [some (.object h.objects.length), some (.bool ok)])[σ.store.length + 1]? = some (some (.bool ok)) := by simp
  have e4 : List.length ρ + 1 + 1 + 1 - List.length ρ = 3 := by omega
  have t1 : (h.addObject c []).isOfType w (.bool ok) cb = true := by rw [isOfType_add (fun _ h => by cases h)]; exact b2
  have t2 : (h.addObject c []).isOfType w v w.anyClass = h.isOfType w v w.anyClass := by rw [isOfType_add hv.1]
  have n1 : Value.isNull (.bool ok) = false := rfl
  unfold Src.invoke resultNew
  cases h0 : v.isNull
  · have h1 : h.isOfType w v w.anyClass = true := hv.2.resolve_left (by simp [h0])
    simp [Src.bindArgs, Src.bindParams, bind, S.bind, Src.alloc, Src.bodyStmts, Src.bodyResult, Src.hoist, Src.hoisted,
      pure, S.pure, Src.result, Src.evalStmts, Src.eval, Src.evalOpt, S.guard, S.operand, Src.readVar, List.lookup, Src.readLoc,
      Src.setFieldOf, hh, asObject_new, setField_new, Src.finish, Src.Closure.role, e1, e2, e3, e4, e5, l1, l2, Src.globalVar, b1, a1, Src.classRef,
      Src.checkType, t1, t2, h1, h0, n1, Src.updateOp, Src.checkVar, ValueMap.insert, Src.noFn, Src.noFnAny, Src.noFnOpt,
      -List.getElem?_eq_getElem, -getElem?_pos, -List.getElem?_set_ne]
  · simp [Src.bindArgs, Src.bindParams, bind, S.bind, Src.alloc, Src.bodyStmts, Src.bodyResult, Src.hoist, Src.hoisted,
      pure, S.pure, Src.result, Src.evalStmts, Src.eval, Src.evalOpt, S.guard, S.operand, Src.readVar, List.lookup, Src.readLoc,
      Src.setFieldOf, hh, asObject_new, setField_new, Src.finish, Src.Closure.role, e1, e2, e3, e4, e5, l1, l2, Src.globalVar, b1, a1, Src.classRef,
      Src.checkType, t1, h0, n1, Src.updateOp, Src.checkVar, ValueMap.insert, Src.noFn, Src.noFnAny, Src.noFnOpt,
      -List.getElem?_eq_getElem, -getElem?_pos, -List.getElem?_set_ne]

/-- **C63.**  `Ok(v)` and `Err(v)` make an object of their class with the two fields, and change nothing else. -/
theorem make_result {w : World} {known : Src.Known} {src : Src.Sources} {N base : Nat} {cls : Bool → Nat} {σ : State} (h : HasResults w σ base cls)
    (ok : Bool) {v : Value} (hv : Storable w σ.heap v) :
    (Src.calls w known src (N + 3)).call (.cls (cls ok)) [v] σ = (.ok (.object σ.heap.objects.length), made (cls ok) ok v σ) := by
  obtain ⟨cb, b1, b2⟩ := h.bool
  obtain ⟨kr, ρr, r1, r2, r3, r4⟩ := h.new
  obtain ⟨kc, ρc, l, c1, c2, c3, c4⟩ := h.case ok
  show Src.apply w known (Src.calls w known src (N + 2)) (N + 2) (.cls (cls ok)) [v] σ = _
  unfold Src.apply
  simp only [callTarget, bind, S.bind, Src.onHeap, newObject_eq, Src.construct, method_eq, c1]
  obtain ⟨o, ho⟩ : ∃ o : Value, o = .object σ.heap.objects.length := ⟨_, rfl⟩
  rw [← ho]
  show Src.apply w known (Src.calls w known src (N + 1)) (N + 1) (.fnBound o (Src.closure kc)) _ _ = _
  unfold Src.apply
  simp only [callTarget, Src.closure, c2, Option.getD]
  have hr := resultNew_body (call := Src.calls w known src N) (n := N) (w := w) (c := cls ok)
    (σ := { σ with heap := σ.heap.addObject (cls ok) [], store := σ.store ++ [some o, some v] })
    rfl hv b1 (b2 ok) h.any r3 r4
  rw [← ho] at hr
  have hc : (Src.calls w known src (N + 1)).call (.fnBound o (Src.closure kr)) [.bool ok, v]
      { σ with heap := σ.heap.addObject (cls ok) [], store := σ.store ++ [some o, some v] } = (.ok o, made (cls ok) ok v σ) := by
    show Src.apply w known (Src.calls w known src N) N (.fnBound o (Src.closure kr)) _ _ = _
    unfold Src.apply
    simp only [callTarget, Src.closure, r2, Option.getD]
    rw [hr]
    simp [made, ho]
  have e1 : (σ.store ++ [some o, some v])[σ.store.length]? = some (some o) := by simp
  have e2 : (σ.store ++ [some o, some v])[σ.store.length + 1]? = some (some v) := by simp
  have e3 : (σ.store ++ [some o, some v])[l]? = some (some (.cls base)) := getElem?_more c4 _
  have e4 : List.length ρc + 1 + 1 - List.length ρc = 2 := by omega
  have e5 : (made (cls ok) ok v σ).store[σ.store.length]? = some (some o) := by simp [made, ho]
  unfold Src.invoke caseNew
  simp [Src.bindArgs, Src.bindParams, bind, S.bind, Src.alloc, Src.bodyStmts, Src.bodyResult, Src.hoist, Src.hoisted,
      pure, S.pure, Src.result, Src.evalStmts, Src.eval, Src.evalOpt, Src.evalAll, S.guard, S.operand, Src.readVar, List.lookup, Src.readLoc,
      Src.finish, Src.Closure.role, e1, e2, e3, e4, e5, c3, Src.classRef, Src.construct, method_eq, r1, hc, Src.chainEnd, Src.closed, S.noExit,
      Src.checkVar, Src.noFn, Src.noFnAny, Src.noFnOpt, -List.getElem?_eq_getElem, -getElem?_pos, -List.getElem?_set_ne]

theorem HasResults.later {w : World} {σ σ' : State} {base : Nat} {cls : Bool → Nat} (h : HasResults w σ base cls) (hm : σ.heap.More σ'.heap)
    (hs : σ.store <+: σ'.store) (hf : σ.fns <+: σ'.fns) (hg : σ'.globals = σ.globals) : HasResults w σ' base cls := by
  obtain ⟨h1, h2, h3, h4⟩ := hm
  have hmeth : ∀ d key, σ'.heap.method d key = σ.heap.method d key := by
    intro d key
    unfold Heap.method
    rw [h4]
  have hcls : ∀ c d, σ'.heap.isClass c d = σ.heap.isClass c d := by
    intro c d
    unfold Heap.isClass
    rw [h4]
  have hb : ∀ b c, σ'.heap.isOfType w (.bool b) c = σ.heap.isOfType w (.bool b) c := by
    intro b c
    unfold Heap.isOfType
    rw [show σ'.heap.classOf w (.bool b) = σ.heap.classOf w (.bool b) from rfl]
    cases σ.heap.classOf w (.bool b) <;> simp [hcls]
  refine { any := hg ▸ h.any, bool := ?_, function := hg ▸ h.function, new := ?_, case := fun ok => ?_, map := fun ok => ?_, sub := fun ok => (hcls _ _).trans (h.sub ok) }
  · obtain ⟨c, b1, b2⟩ := h.bool
    exact ⟨c, hg ▸ b1, fun b => (hb b c).trans (b2 b)⟩
  · obtain ⟨k, ρ, n1, n2, n3⟩ := h.new
    exact ⟨k, ρ, (hmeth _ _).trans n1, prefix_get_some hf n2, n3⟩
  · obtain ⟨k, ρ, l, n1, n2, n3, n4⟩ := h.case ok
    exact ⟨k, ρ, l, (hmeth _ _).trans n1, prefix_get_some hf n2, n3, prefix_get_some hs n4⟩
  · obtain ⟨k, ρ, l, l', n1, n2, n3, n4, n5, n6⟩ := h.map ok
    exact ⟨k, ρ, l, l', (hmeth _ _).trans n1, prefix_get_some hf n2, fun b => ⟨(n3 b).1, prefix_get_some hs (n3 b).2⟩, n4, prefix_get_some hs n5, n6⟩

/-- The object is a result. -/
structure IsResult (w : World) (σ : State) (c o : Nat) (ok : Bool) (v : Value) : Prop where
  cls : σ.heap.classOf w (.object o) = some c
  isOk : σ.heap.ownField "is_ok" (.object o) = some (.bool ok)
  value : σ.heap.ownField "result" (.object o) = some v
  map : σ.heap.ownField "map" (.object o) = none

/-- **C63.**  What `Ok(v)` and `Err(v)` make is a result that holds `v` and says which of them it is. -/
theorem made_isResult (w : World) (c : Nat) (ok : Bool) (v : Value) (σ : State) : IsResult w (made c ok v σ) c σ.heap.objects.length ok v where
  cls := by
    show (σ.heap.addObject c _).classOf w _ = _
    unfold Heap.classOf
    rw [asObject_new]
    rfl
  isOk := ownField_new _ _ _ _
  value := ownField_new _ _ _ _
  map := ownField_new _ _ _ _

/-- **C63.**  `r!!` for a result: the value of `Ok`; from `Err` the function returns the result itself. -/
theorem errProp_result {w : World} {call : Src.Calls} {n : Nat} {σ : State} {c o l : Nat} {ok : Bool} {v : Value} {r : String} {ρ : SEnv}
    (hl : ρ.lookup r = some l) (hr : σ.store[l]? = some (some (.object o))) (h : IsResult w σ c o ok v) :
    Src.eval w call (.plain none) n false (.errProp (.ident r)) ρ σ =
      if ok then (.ok (v, ρ), σ) else (.jump (.ret ρ (.object o)), σ) := by
  cases ok <;>
  simp [Src.eval, S.guard, Src.spine, Src.chainEnd, Src.closed, S.noExit, bind, S.bind, pure, S.pure, Src.readVar, hl, Src.readLoc, hr, Src.fieldOf,
    h.isOk, h.value, Src.truth, Src.checkResult, S.returned, S.jump, -List.getElem?_eq_getElem, -getElem?_pos]

/-- **C63.**  `map` of an `Ok` calls the function with the value and makes an `Ok` of what it gives. -/
theorem map_ok {w : World} {known : Src.Known} {src : Src.Sources} {N base o cf : Nat} {cls : Bool → Nat} {σ σ2 : State} {v f u : Value}
    (h : HasResults w σ base cls) (hr : IsResult w σ (cls true) o true v) (hfn : σ.globals.get "Function" = some (.cls cf))
    (hf : σ.heap.isOfType w f cf = true) (hf0 : f.isNull = false)
    (hcall : (Src.calls w known src (N + 3)).call f [v] { σ with store := σ.store ++ [some (.object o), some f] } = (.ok u, σ2))
    (h2 : HasResults w σ2 base cls) (hu : Storable w σ2.heap u) (keep : ∀ l : Nat, σ.store[l]? = some (some (Value.cls base)) → σ2.store[l]? = some (some (Value.cls base))) :
    ∃ g, Src.fieldOf w "map" (.object o) σ = (.ok g, σ) ∧
      (Src.calls w known src (N + 4)).call g [f] σ = (.ok (.object σ2.heap.objects.length), made (cls true) true u σ2) := by
  obtain ⟨k, ρ, l, l', m1, m2, m3, m4, m5, m6⟩ := h.map true
  refine ⟨.fnBound (.object o) (Src.closure k), ?_, ?_⟩
  · unfold Src.fieldOf
    rw [hr.map, hr.cls]
    simp [m1]
  · show Src.apply w known (Src.calls w known src (N + 3)) (N + 3) (.fnBound (.object o) (Src.closure k)) [f] σ = _
    unfold Src.apply
    simp only [callTarget, Src.closure, m2, Option.getD]
    have hmk := make_result (known := known) (src := src) (N := N) h2 true hu
    obtain ⟨n1, n2⟩ := m3 true
    simp only [if_true] at n1
    have e1 : (σ.store ++ [some (.object o), some f])[σ.store.length]? = some (some (.object o)) := by simp
    have e2 : (σ.store ++ [some (.object o), some f])[σ.store.length + 1]? = some (some f) := by simp
    have e3 : (σ.store ++ [some (.object o), some f])[l true]? = some (some (.cls (cls true))) := getElem?_more n2 _
    have e4 : List.length ρ + 1 + 1 - List.length ρ = 2 := by omega
    have e5 : (made (cls true) true u σ2).store[l']? = some (some (.cls base)) := getElem?_more (keep l' m5) _
    have e6 : (made (cls true) true u σ2).heap.isOfType w (.object σ2.heap.objects.length) base = true := by
      unfold Heap.isOfType
      rw [(made_isResult w (cls true) true u σ2).cls]
      exact h2.sub true
    have n0 : ∀ o, Value.isNull (.object o) = false := fun _ => rfl
    unfold Src.invoke resultMap
    simp [Src.bindArgs, Src.bindParams, bind, S.bind, Src.alloc, Src.bodyStmts, Src.bodyResult, Src.hoist, Src.hoisted,
      pure, S.pure, Src.result, Src.evalStmts, Src.eval, Src.evalOpt, Src.evalAll, S.guard, S.operand, Src.readVar, List.lookup, Src.readLoc,
      Src.finish, Src.Closure.role, e1, e2, e3, e4, e5, e6, n0, Src.classRef, hmk, Src.chainEnd, Src.closed, S.noExit, Src.spine, Src.block, Src.declares, Src.declaresOpt,
      Src.checkVar, Src.checkType, Src.checkResult, Src.globalVar, hfn, hf, hf0, m4, m6, n1, Src.fieldOf, hr.isOk, hr.value, Src.truth, hcall,
      -List.getElem?_eq_getElem, -getElem?_pos, -List.getElem?_set_ne]

/-- **C63.**  `map` of an `Err` makes an `Err` with the same value; the function is not called. -/
theorem map_err {w : World} {known : Src.Known} {src : Src.Sources} {N base o cf : Nat} {cls : Bool → Nat} {σ : State} {v f : Value}
    (h : HasResults w σ base cls) (hr : IsResult w σ (cls false) o false v) (hfn : σ.globals.get "Function" = some (.cls cf))
    (hf : σ.heap.isOfType w f cf = true) (hf0 : f.isNull = false) (hv : Storable w σ.heap v) :
    ∃ g, Src.fieldOf w "map" (.object o) σ = (.ok g, σ) ∧
      (Src.calls w known src (N + 4)).call g [f] σ = (.ok (.object σ.heap.objects.length),
        made (cls false) false v { σ with store := σ.store ++ [some (.object o), some f] }) := by
  obtain ⟨k, ρ, l, l', m1, m2, m3, m4, m5, m6⟩ := h.map false
  refine ⟨.fnBound (.object o) (Src.closure k), ?_, ?_⟩
  · unfold Src.fieldOf
    rw [hr.map, hr.cls]
    simp [m1]
  · show Src.apply w known (Src.calls w known src (N + 3)) (N + 3) (.fnBound (.object o) (Src.closure k)) [f] σ = _
    unfold Src.apply
    simp only [callTarget, Src.closure, m2, Option.getD]
    have h2 : HasResults w { σ with store := σ.store ++ [some (.object o), some f] } base cls :=
      h.later ⟨List.prefix_refl _, List.prefix_refl _, rfl, rfl⟩ (List.prefix_append _ _) (List.prefix_refl _) rfl
    have hmk := make_result (known := known) (src := src) (N := N) h2 false hv
    obtain ⟨n1, n2⟩ := m3 false
    simp only [Bool.false_eq_true, if_false] at n1
    have e1 : (σ.store ++ [some (.object o), some f])[σ.store.length]? = some (some (.object o)) := by simp
    have e2 : (σ.store ++ [some (.object o), some f])[σ.store.length + 1]? = some (some f) := by simp
    have e3 : (σ.store ++ [some (.object o), some f])[l false]? = some (some (.cls (cls false))) := getElem?_more n2 _
    have e4 : List.length ρ + 1 + 1 - List.length ρ = 2 := by omega
    have e5 : (made (cls false) false v { σ with store := σ.store ++ [some (.object o), some f] }).store[l']? = some (some (.cls base)) :=
      getElem?_more (getElem?_more m5 _) _
    have e6 : (made (cls false) false v { σ with store := σ.store ++ [some (.object o), some f] }).heap.isOfType w (.object σ.heap.objects.length) base = true := by
      unfold Heap.isOfType
      rw [(made_isResult w (cls false) false v { σ with store := σ.store ++ [some (.object o), some f] }).cls]
      exact h2.sub false
    have n0 : ∀ o, Value.isNull (.object o) = false := fun _ => rfl
    unfold Src.invoke resultMap
    simp [Src.bindArgs, Src.bindParams, bind, S.bind, Src.alloc, Src.bodyStmts, Src.bodyResult, Src.hoist, Src.hoisted,
      pure, S.pure, Src.result, Src.evalStmts, Src.eval, Src.evalOpt, Src.evalAll, S.guard, S.operand, Src.readVar, List.lookup, Src.readLoc,
      Src.finish, Src.Closure.role, e1, e2, e3, e4, e5, e6, n0, Src.classRef, hmk, Src.chainEnd, Src.closed, S.noExit, Src.spine, Src.block, Src.declares, Src.declaresOpt,
      Src.checkVar, Src.checkType, Src.checkResult, Src.globalVar, hfn, hf, hf0, m4, m6, n1, Src.fieldOf, hr.isOk, hr.value, Src.truth,
      -List.getElem?_eq_getElem, -getElem?_pos, -List.getElem?_set_ne]

theorem hoist_none : ∀ (es : List Expr) (ρ : SEnv), (∀ e ∈ es, Src.hoisted e = none) → Src.hoist es ρ = pure ρ
  | [], _, _ => rfl
  | e :: es, ρ, h => by
    unfold Src.hoist
    rw [h e (by simp)]
    exact hoist_none es ρ fun e he => h e (by simp [he])

/-- Functions have captured variables that exist. -/
def EnvsExist (σ : State) : Prop := ∀ cl ∈ σ.fns, ∀ y ∈ cl.env, y.2 < σ.store.length

theorem captured_new {σ : State} (h : EnvsExist σ) {ρ ρ' : SEnv} {store : List (Option Value)} (hl : ∀ y ∈ ρ', σ.store.length ≤ y.2) :
    Src.captured { σ with store := store } ρ (ρ' ++ ρ) = false := by
  unfold Src.captured
  rw [show (ρ' ++ ρ).length - ρ.length = ρ'.length by simp, List.take_left]
  simp only [List.any_eq_false, Bool.not_eq_true, beq_eq_false_iff_ne]
  intro x hx cl hc y hy e
  have h1 := h cl hc y hy
  have h2 := hl x hx
  omega

theorem result_congr {ρ : SEnv} {x y : S Value} {σ σ' : State} (h : x σ = y σ') : Src.result ρ x σ = Src.result ρ y σ' := by
  unfold Src.result
  rw [h]

/-- `fn (r) { let x = r!!  … }` -/
def propagating (x : String) (es : List Expr) (t : Option Expr) (ρ : SEnv) : Src.Closure :=
  ⟨.function, [⟨"r", none⟩], none, .block (.varDecl (.singular x) false (.errProp (.ident "r")) none :: es) t, ρ⟩

/-- **C63.**  A function that has `r!!` for an `Ok` goes on with its value. -/
theorem propagating_ok {w : World} {call : Src.Calls} {n : Nat} {σ : State} {c o : Nat} {v f : Value} {x : String} {es : List Expr} {t : Option Expr} {ρ : SEnv}
    (hr : IsResult w σ c o true v) (hh : ∀ e ∈ es ++ t.toList, Src.hoisted e = none) :
    Src.invoke w call n (propagating x es t ρ) f [.object o] σ =
      Src.result ρ (do
        let ρ' ← Src.evalStmts w call (.plain none) n es ((x, σ.store.length + 2) :: ("r", σ.store.length + 1) :: ("", σ.store.length) :: ρ)
        let (u, _) ← Src.evalOpt w call (.plain none) n t ρ'
        pure u) { σ with store := σ.store ++ [some f, some (.object o), some v] } := by
  let σ1 : State := { σ with store := σ.store ++ [some f, some (.object o)] }
  have e2 : σ1.store[σ.store.length + 1]? = some (some (.object o)) := by simp [σ1]
  have hp := errProp_result (call := call) (n := n) (σ := σ1) (r := "r") (ρ := ("r", σ.store.length + 1) :: ("", σ.store.length) :: ρ) rfl e2 ⟨hr.cls, hr.isOk, hr.value, hr.map⟩
  rw [if_pos rfl] at hp
  have hho : Src.hoist (.varDecl (.singular x) false (.errProp (.ident "r")) none :: es ++ t.toList) (("r", σ.store.length + 1) :: ("", σ.store.length) :: ρ) =
      pure (("r", σ.store.length + 1) :: ("", σ.store.length) :: ρ) := by
    show Src.hoist (es ++ t.toList) _ = _
    exact hoist_none _ _ hh
  have hb : Src.bindArgs w (propagating x es t ρ) f [.object o] σ = (.ok (("r", σ.store.length + 1) :: ("", σ.store.length) :: ρ), σ1) := by
    simp [Src.bindArgs, propagating, Src.bindParams, bind, S.bind, Src.alloc, pure, S.pure, Src.checkVar, σ1]
  unfold Src.invoke
  rw [S.bind_ok_eq hb, S.bind_ok_eq (show Src.hoist (Src.bodyStmts (propagating x es t ρ).body ++ (Src.bodyResult (propagating x es t ρ).body).toList) _ σ1 = _ from congrFun hho σ1)]
  have hd : Src.eval w call (.plain none) n false (.varDecl (.singular x) false (.errProp (.ident "r")) none) (("r", σ.store.length + 1) :: ("", σ.store.length) :: ρ) σ1 =
      (.ok (v, (x, σ.store.length + 2) :: ("r", σ.store.length + 1) :: ("", σ.store.length) :: ρ), { σ with store := σ.store ++ [some f, some (.object o), some v] }) := by
    generalize Expr.errProp (.ident "r") = e at hp
    simp only [Src.eval]
    rw [S.bind_ok_eq hp]
    simp [bind, S.bind, Src.alloc, pure, S.pure, Src.checkVar, σ1]
  refine result_congr ?_
  show (Src.evalStmts w call (.plain none) n (.varDecl (.singular x) false (.errProp (.ident "r")) none :: es) _ >>= fun ρ' => _) σ1 = _
  rw [Src.evalStmts]
  simp only [bind, S.bind]
  rw [hd]
  rfl

/-- **C63.**  A function that has `r!!` for an `Err` ends there, with the `Err` itself as its value. -/
theorem propagating_err {w : World} {call : Src.Calls} {n : Nat} {σ : State} {c o : Nat} {v f : Value} {x : String} {es : List Expr} {t : Option Expr} {ρ : SEnv}
    (hr : IsResult w σ c o false v) (hh : ∀ e ∈ es ++ t.toList, Src.hoisted e = none) (he : EnvsExist σ) :
    Src.invoke w call n (propagating x es t ρ) f [.object o] σ =
      (.ok (.object o), { σ with store := σ.store ++ [some f, some (.object o)] }) := by
  let σ1 : State := { σ with store := σ.store ++ [some f, some (.object o)] }
  have e2 : σ1.store[σ.store.length + 1]? = some (some (.object o)) := by simp [σ1]
  have hp := errProp_result (call := call) (n := n) (σ := σ1) (r := "r") (ρ := ("r", σ.store.length + 1) :: ("", σ.store.length) :: ρ) rfl e2 ⟨hr.cls, hr.isOk, hr.value, hr.map⟩
  rw [if_neg (by simp)] at hp
  have hho : Src.hoist (.varDecl (.singular x) false (.errProp (.ident "r")) none :: es ++ t.toList) (("r", σ.store.length + 1) :: ("", σ.store.length) :: ρ) =
      pure (("r", σ.store.length + 1) :: ("", σ.store.length) :: ρ) := by
    show Src.hoist (es ++ t.toList) _ = _
    exact hoist_none _ _ hh
  have hb : Src.bindArgs w (propagating x es t ρ) f [.object o] σ = (.ok (("r", σ.store.length + 1) :: ("", σ.store.length) :: ρ), σ1) := by
    simp [Src.bindArgs, propagating, Src.bindParams, bind, S.bind, Src.alloc, pure, S.pure, Src.checkVar, σ1]
  unfold Src.invoke
  rw [S.bind_ok_eq hb, S.bind_ok_eq (show Src.hoist (Src.bodyStmts (propagating x es t ρ).body ++ (Src.bodyResult (propagating x es t ρ).body).toList) _ σ1 = _ from congrFun hho σ1)]
  have hd : Src.eval w call (.plain none) n false (.varDecl (.singular x) false (.errProp (.ident "r")) none) (("r", σ.store.length + 1) :: ("", σ.store.length) :: ρ) σ1 =
      (.jump (.ret (("r", σ.store.length + 1) :: ("", σ.store.length) :: ρ) (.object o)), σ1) := by
    generalize Expr.errProp (.ident "r") = e at hp
    simp only [Src.eval, bind, S.bind]
    rw [hp]
  have hc : Src.captured σ1 ρ (("r", σ.store.length + 1) :: ("", σ.store.length) :: ρ) = false :=
    captured_new he (ρ' := [("r", σ.store.length + 1), ("", σ.store.length)]) (by simp)
  have hx : (Src.evalStmts w call (propagating x es t ρ).role n (Src.bodyStmts (propagating x es t ρ).body) (("r", σ.store.length + 1) :: ("", σ.store.length) :: ρ) >>= fun ρ' =>
      Src.evalOpt w call (propagating x es t ρ).role n (Src.bodyResult (propagating x es t ρ).body) ρ' >>= fun p => Src.finish w (propagating x es t ρ) p.1 p.2) σ1 =
      (.jump (.ret (("r", σ.store.length + 1) :: ("", σ.store.length) :: ρ) (.object o)), σ1) := by
    show (Src.evalStmts w call (.plain none) n (.varDecl (.singular x) false (.errProp (.ident "r")) none :: es) _ >>= fun ρ' => _) σ1 = _
    rw [Src.evalStmts]
    simp only [bind, S.bind]
    rw [hd]
  show Src.result ρ _ σ1 = _
  unfold Src.result
  rw [hx]
  simp only [hc]
  rfl

/-! ## After the prelude -/

set_option linter.constructorNameAsVariable false

/-- Values of the kind are instances of the class. -/
def kindOf (w : World) (h : Heap) (k : ValueKind) (d : Nat) : Bool :=
  match w.valueClass k with
  | some c => h.isClass c d
  | none => false

theorem isOfType_cls {w : World} {h : Heap} {d : Nat} (c : Nat) (hin : ∀ c, c < h.classes.length → h.isOfType w (.cls c) d = true)
    (hout : kindOf w h .class d = true) : h.isOfType w (.cls c) d = true := by
  by_cases hc : c < h.classes.length
  · exact hin c hc
  · have h0 : h.asObject (.cls c) = none := by
      show (h.classes[c]?).map _ = _
      rw [List.getElem?_eq_none (by omega)]
      rfl
    unfold Heap.isOfType Heap.classOf
    rw [h0]
    exact hout

theorem isOfType_array {w : World} {h : Heap} {d : Nat} (a : Nat) (ha : h.arrays.length = 0) (hout : kindOf w h .array d = true) :
    h.isOfType w (.array a) d = true := by
  have h0 : h.asObject (.array a) = none := by
    show (h.arrays[a]?).map _ = _
    rw [List.getElem?_eq_none (by omega)]
    rfl
  unfold Heap.isOfType Heap.classOf
  rw [h0]
  exact hout

section
variable (constant : String → Float) (lib : FloatLib) (loader : String → Except RtErr Bytecode)
  (fmod : Float → Float → Float) (checks debug : Bool) (src : Src.Sources)

/-- The classes `Ok` and `Err` of the prelude. -/
def caseClass (ok : Bool) : Nat := if ok then 13 else 14

/-- The environment of a function of the prelude. -/
def bootEnv (k : Nat) : SEnv := (((Src.boot constant lib loader fmod checks debug src).2.fns[k]?).map (·.env)).getD []

/-- The prelude has the classes of results. -/
theorem boot_results : HasResults (tool lib loader fmod checks debug) (Src.boot constant lib loader fmod checks debug src).2 12 caseClass where
  any := by cases checks <;> cases debug <;> kernel_rfl
  bool := ⟨3, by cases checks <;> cases debug <;> kernel_rfl, fun b => by cases b <;> cases checks <;> cases debug <;> kernel_rfl⟩
  function := ⟨6, by cases checks <;> cases debug <;> kernel_rfl⟩
  new := ⟨6, bootEnv constant lib loader fmod checks debug src 6, by cases checks <;> cases debug <;> kernel_rfl,
    by cases checks <;> cases debug <;> kernel_rfl, by cases checks <;> cases debug <;> kernel_rfl, by cases checks <;> cases debug <;> kernel_rfl⟩
  case := fun ok => match ok with
    | true => ⟨8, bootEnv constant lib loader fmod checks debug src 8, 10, by cases checks <;> cases debug <;> kernel_rfl,
      by cases checks <;> cases debug <;> kernel_rfl, by cases checks <;> cases debug <;> kernel_rfl, by cases checks <;> cases debug <;> kernel_rfl⟩
    | false => ⟨9, bootEnv constant lib loader fmod checks debug src 9, 11, by cases checks <;> cases debug <;> kernel_rfl,
      by cases checks <;> cases debug <;> kernel_rfl, by cases checks <;> cases debug <;> kernel_rfl, by cases checks <;> cases debug <;> kernel_rfl⟩
  map := fun ok => ⟨7, bootEnv constant lib loader fmod checks debug src 7, fun b => if b then 4 else 5, 3,
    by cases ok <;> cases checks <;> cases debug <;> kernel_rfl, by cases checks <;> cases debug <;> kernel_rfl,
    fun b => ⟨by cases b <;> cases checks <;> cases debug <;> kernel_rfl, by cases b <;> cases checks <;> cases debug <;> kernel_rfl⟩,
    by cases checks <;> cases debug <;> kernel_rfl, by cases checks <;> cases debug <;> kernel_rfl, by cases checks <;> cases debug <;> kernel_rfl⟩
  sub := fun ok => by cases ok <;> cases checks <;> cases debug <;> kernel_rfl

theorem boot_envsExist : EnvsExist (Src.boot constant lib loader fmod checks debug src).2 := by
  have h : ((Src.boot constant lib loader fmod checks debug src).2.fns.all fun cl => cl.env.all fun y =>
      decide (y.2 < (Src.boot constant lib loader fmod checks debug src).2.store.length)) = true := by
    cases checks <;> cases debug <;> kernel_rfl
  intro cl hc y hy
  have := List.all_eq_true.1 (List.all_eq_true.1 h cl hc) y hy
  simpa using this

/-- Everything that exists after the prelude can be in a result, except symbols, which no program has as a value. -/
theorem boot_storable (v : Value) (hv : (Src.boot constant lib loader fmod checks debug src).2.heap.Exists v) (hsym : ∀ s, v ≠ .sym s) :
    Storable (tool lib loader fmod checks debug) (Src.boot constant lib loader fmod checks debug src).2.heap v := by
  refine ⟨hv, ?_⟩
  cases v with
  | null => exact .inl rfl
  | object o =>
    right
    have h : ((List.range (Src.boot constant lib loader fmod checks debug src).2.heap.objects.length).all fun o =>
        (Src.boot constant lib loader fmod checks debug src).2.heap.isOfType (tool lib loader fmod checks debug) (.object o) (tool lib loader fmod checks debug).anyClass) = true := by
      cases checks <;> cases debug <;> kernel_rfl
    exact List.all_eq_true.1 h o (List.mem_range.2 (hv o rfl))
  | cls c =>
    right
    have h : ((List.range (Src.boot constant lib loader fmod checks debug src).2.heap.classes.length).all fun c =>
        (Src.boot constant lib loader fmod checks debug src).2.heap.isOfType (tool lib loader fmod checks debug) (.cls c) (tool lib loader fmod checks debug).anyClass) = true := by
      cases checks <;> cases debug <;> kernel_rfl
    exact isOfType_cls c (fun c hc => List.all_eq_true.1 h c (List.mem_range.2 hc)) (by cases checks <;> cases debug <;> kernel_rfl)
  | array a =>
    right
    have h : (Src.boot constant lib loader fmod checks debug src).2.heap.arrays.length = 0 := by cases checks <;> cases debug <;> kernel_rfl
    exact isOfType_array a h (by cases checks <;> cases debug <;> kernel_rfl)
  | sym s => exact absurd rfl (hsym s)
  | _ => right; cases checks <;> cases debug <;> kernel_rfl

/-- `Ok(e).result` and the like. -/
def holding (ok : Bool) (e : Expr) (field : String) : Expr :=
  .block [] (some (.field (.call (.ident (if ok then "Ok" else "Err")) [e]) field))

/-- The value of such a program. -/
theorem holding_eval {w : World} {known : Src.Known} {sources : Src.Sources} {N base : Nat} {cls : Bool → Nat} {σ σ1 : State} {ok : Bool} {e : Expr} {v : Value} {ρ : SEnv}
    (hg : σ.globals.get (if ok then "Ok" else "Err") = some (.cls (cls ok)))
    (he : Src.eval w (Src.calls w known sources (N + 3)) (.plain none) (N + 3) false e [] σ = (.ok (v, ρ), σ1))
    (h1 : HasResults w σ1 base cls) (hv : Storable w σ1.heap v) :
    Src.program w known sources (N + 3) (holding ok e "result") σ = (.ok v, made (cls ok) ok v σ1) ∧
    Src.program w known sources (N + 3) (holding ok e "is_ok") σ = (.ok (.bool ok), made (cls ok) ok v σ1) := by
  have hmk := make_result (known := known) (src := sources) (N := N) h1 ok hv
  have hf := (made_isResult w (cls ok) ok v σ1).isOk
  have hr := (made_isResult w (cls ok) ok v σ1).value
  have hid : Src.readVar [] (if ok then "Ok" else "Err") σ = (.ok (.cls (cls ok)), σ) := by
    unfold Src.readVar Src.globalVar
    rw [List.lookup]
    simp only [hg]
  unfold Src.program holding
  constructor <;>
  simp [S.operand, Src.eval, Src.evalOpt, Src.evalStmts, Src.evalAll, Src.block, Src.hoist, Src.hoisted, S.guard, Src.spine, Src.chainEnd, Src.closed, S.noExit,
    bind, S.bind, pure, S.pure, hid, he, hmk, Src.fieldOf, hf, hr]

/-- **C63.**  With the command line tool, for an expression `e` of any value: `Ok(e).result` and `Err(e).result` are what `e` is, unless the
stack overflows, and `is_ok` says which of them it is. -/
theorem tool_result_holds_partial {N : Nat} {ok : Bool} {e : Expr} {v : Value} {ρ : SEnv} {σ1 : State} {bc bc' : Bytecode}
    (hs : SourceRel (Natives.world lib loader fmod checks debug) src)
    (h : compile .script (holding ok e "result") = .ok bc) (hf : Fits bc) (h' : compile .script (holding ok e "is_ok") = .ok bc') (hf' : Fits bc')
    (he : Src.eval (tool lib loader fmod checks debug) (Src.calls (tool lib loader fmod checks debug) runtimeKnown (toolSources src) (N + 3)) (.plain none) (N + 3) false e []
      (Src.boot constant lib loader fmod checks debug src).2 = (.ok (v, ρ), σ1))
    (h1 : HasResults (tool lib loader fmod checks debug) σ1 12 caseClass) (hv : Storable (tool lib loader fmod checks debug) σ1.heap v) :
    ∃ κ, (Overflows (fun k => run (tool lib loader fmod checks debug) k bc) (boot constant lib loader fmod checks debug).2 ∨
      ∃ k u m', run (tool lib loader fmod checks debug) k bc (boot constant lib loader fmod checks debug).2 = (.ok u, m') ∧
        Ended κ (boot constant lib loader fmod checks debug).2 v (made (caseClass ok) ok v σ1) u m') ∧
    (Overflows (fun k => run (tool lib loader fmod checks debug) k bc') (boot constant lib loader fmod checks debug).2 ∨
      ∃ k m', run (tool lib loader fmod checks debug) k bc' (boot constant lib loader fmod checks debug).2 = (.ok (.bool ok), m')) := by
  obtain ⟨μ, κ, hr⟩ := tool_ready constant lib loader fmod checks debug src hs
  have hg : (Src.boot constant lib loader fmod checks debug src).2.globals.get (if ok then "Ok" else "Err") = some (.cls (caseClass ok)) := by
    cases ok <;> cases checks <;> cases debug <;> kernel_rfl
  obtain ⟨e1, e2⟩ := holding_eval hg he h1 hv
  refine ⟨κ, ?_, ?_⟩
  · have := compiled_program_agrees_partial (n := N + 3) (runtime_natives lib (withPrelude loader) fmod checks debug)
      (toolSources_rel (w := Natives.world lib loader fmod checks debug) hs) h hf hr
    refine this.imp_right fun hA => ?_
    have e1' : Src.program (Natives.world lib (withPrelude loader) fmod checks debug) runtimeKnown (toolSources src) (N + 3) (holding ok e "result")
      (Src.boot constant lib loader fmod checks debug src).2 = _ := e1
    unfold holding at e1'
    rw [e1'] at hA
    exact hA
  · have := compiled_program_agrees_partial (n := N + 3) (runtime_natives lib (withPrelude loader) fmod checks debug)
      (toolSources_rel (w := Natives.world lib loader fmod checks debug) hs) h' hf' hr
    refine this.imp_right fun hA => ?_
    have e1' : Src.program (Natives.world lib (withPrelude loader) fmod checks debug) runtimeKnown (toolSources src) (N + 3) (holding ok e "is_ok")
      (Src.boot constant lib loader fmod checks debug src).2 = _ := e2
    unfold holding at e1'
    rw [e1'] at hA
    obtain ⟨k, u, m', hr, -, -, μ', κ', -, hv, -⟩ := hA
    cases hv
    exact ⟨k, m', hr⟩

/-- A new object, a reference, meets the conditions: `Ok(#{}).result`. -/
example : ∃ v ρ σ1, Src.eval (tool lib loader fmod checks debug) (Src.calls (tool lib loader fmod checks debug) runtimeKnown (toolSources src) 3) (.plain none) 3 false
      (.object []) [] (Src.boot constant lib loader fmod checks debug src).2 = (.ok (v, ρ), σ1) ∧
    HasResults (tool lib loader fmod checks debug) σ1 12 caseClass ∧ Storable (tool lib loader fmod checks debug) σ1.heap v := by
  have ha : (Src.boot constant lib loader fmod checks debug src).2.heap.isClass (tool lib loader fmod checks debug).anyClass (tool lib loader fmod checks debug).anyClass = true := by
    cases checks <;> cases debug <;> kernel_rfl
  have hb := boot_results constant lib loader fmod checks debug src
  generalize (Src.boot constant lib loader fmod checks debug src).2 = σ at ha hb
  refine ⟨.object σ.heap.objects.length, [], { σ with heap := σ.heap.addObject (tool lib loader fmod checks debug).anyClass [] }, ?_,
    hb.later (addObject_more _ _ _) (List.prefix_refl _) (List.prefix_refl _) rfl, ?_, .inr ?_⟩
  · simp [Src.eval, Src.evalFields, bind, S.bind, pure, S.pure, Src.onHeap, newObject_eq]
  · rintro o h
    cases h
    simp [Heap.addObject]
  · unfold Heap.isOfType Heap.classOf
    rw [asObject_new]
    exact ha

example : ([holding true (.object []) "result", holding false (.object []) "is_ok"].all fun e => match compile .script e with
    | .ok bc => fitsUpTo 9 bc
    | .error _ => false) = true := by decide +kernel

/-- `[x]`, the rest of a function after `let x = r!!`, declares nothing. -/
example : ∀ e ∈ [] ++ (some (Expr.list [.ident "x"])).toList, Src.hoisted e = none := by simp [Src.hoisted]

end

end Dice
