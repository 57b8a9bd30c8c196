import Verif.SimPrelude
import Verif.RangeProps

/-!
# Loops over stored ranges

C61: a loop over a range that was stored in a variable goes through the classes of the prelude.  The theorems are about the
reference evaluator after loading the prelude; `SimPrelude` carries them to the machine.
-/

namespace Dice

open Sim Natives
open Src (SEnv State Out S Jump)

/-! ## New objects -/

/-- The heap with a new object. -/
def Heap.addObject (h : Heap) (c : Nat) (fs : ValueMap) : Heap :=
  { h with maps := h.maps ++ [fs], objects := h.objects ++ [⟨some c, h.maps.length⟩] }

theorem newObject_eq (h : Heap) (c : Nat) : h.newObject c = (.object h.objects.length, h.addObject c []) := rfl

theorem asObject_new (h : Heap) (c : Nat) (fs : ValueMap) : (h.addObject c fs).asObject (.object h.objects.length) = some ⟨some c, h.maps.length⟩ := by
  unfold Heap.addObject Heap.asObject
  simp

theorem modify_last {α : Type} (x : α) (f : α → α) : ∀ (l : List α), (l ++ [x]).modify l.length f = l ++ [f x]
  | [] => rfl
  | a :: l => by
    show (a :: (l ++ [x])).modify (l.length + 1) f = _
    rw [List.modify_succ_cons, modify_last x f l]
    rfl

theorem setField_new (h : Heap) (c : Nat) (fs : ValueMap) (key : String) (v : Value) :
    (h.addObject c fs).setField ⟨some c, h.maps.length⟩ key v = h.addObject c (fs.insert key v) := by
  unfold Heap.addObject Heap.setField
  simp only [modify_last]

theorem ownField_new (h : Heap) (c : Nat) (fs : ValueMap) (key : String) :
    (h.addObject c fs).ownField key (.object h.objects.length) = fs.get key := by
  unfold Heap.ownField
  rw [asObject_new]
  unfold Heap.addObject Heap.field
  simp

/-- Fields are kept when there are more objects. -/
theorem ownField_old {h : Heap} {key : String} {o : Nat} {v : Value} (hf : h.ownField key (.object o) = some v) (c : Nat) (fs : ValueMap) :
    (h.addObject c fs).ownField key (.object o) = some v := by
  unfold Heap.ownField at hf ⊢
  change (match h.objects[o]? with | some x => h.field x key | none => none) = _ at hf
  show (match (h.addObject c fs).objects[o]? with | some x => (h.addObject c fs).field x key | none => none) = _
  cases ho : h.objects[o]? with
  | none => rw [ho] at hf; cases hf
  | some x =>
    rw [ho] at hf
    have h1 : (h.addObject c fs).objects[o]? = some x := by
      unfold Heap.addObject
      rw [List.getElem?_append_left (List.getElem?_eq_some_iff.1 ho).1]
      exact ho
    rw [h1]
    unfold Heap.field at hf ⊢
    cases hm : h.maps[x.fields]? with
    | none => dsimp only at hf; rw [hm] at hf; cases hf
    | some y =>
      have h2 : (h.addObject c fs).maps[x.fields]? = some y := by
        unfold Heap.addObject
        rw [List.getElem?_append_left (List.getElem?_eq_some_iff.1 hm).1]
        exact hm
      dsimp only at hf ⊢
      rw [hm] at hf
      rw [h2]
      exact hf

/-! ## The next number -/

/-- The function `next` of the iterators of ranges. -/
def rangeNext (compare : BinaryOp) (done : String) : Expr :=
  .block
    [.varDecl (.singular "result") false
      (.ifExpr (.binary compare (.ident "current") (.field (.ident "self") "end"))
        (.block [] (some (.object [("value", .ident "current"), (done, .bool false)])))
        (some (.block [] (some (.object [(done, .bool true)]))))) none,
     .assign .add (.ident "current") (.int 1)]
    (some (.ident "result"))

/-- The iterator of a range whose next number is `i`: the closure `k` counts in the location `lc` up to the field `end` of
the object in the location `ls`. -/
structure Counting (σ : State) (k lc ls o : Nat) (i b : Int) : Prop where
  fn : ∃ ρ, σ.fns[k]? = some ⟨.function, [], none, rangeNext .lessThan "is_done", ("current", lc) :: ("self", ls) :: ρ⟩
  current : σ.store[lc]? = some (some (.int i))
  self : σ.store[ls]? = some (some (.object o))
  stop : σ.heap.ownField "end" (.object o) = some (.int b)

/-- What `next` gives: whether the numbers are used up, and else the number. -/
def answer (i b : Int) : ValueMap :=
  if i < b then [("is_done", .bool false), ("value", .int i)] else [("is_done", .bool true)]

/-- The state after `next`: one more object, two more variables that nobody sees, and the counter advanced. -/
def stepped (w : World) (k lc : Nat) (i b : Int) (σ : State) : State :=
  { σ with
    store := (σ.store ++ [some (Src.closure k), some (.object σ.heap.objects.length)]).set lc (some (.int (i + 1)))
    heap := σ.heap.addObject w.anyClass (answer i b) }

theorem next_body {w : World} {call : Src.Calls} {n : Nat} {σ : State} {lc ls o : Nat} {i b : Int} {ρ : SEnv} (f : Value)
    (h2 : σ.store[lc]? = some (some (.int i))) (h3 : σ.store[ls]? = some (some (.object o)))
    (h4 : σ.heap.ownField "end" (.object o) = some (.int b)) (hi : InI64 (i + 1)) :
    Src.invoke w call n ⟨.function, [], none, rangeNext .lessThan "is_done", ("current", lc) :: ("self", ls) :: ρ⟩ f [] σ =
      (.ok (.object σ.heap.objects.length), { σ with
        store := (σ.store ++ [some f, some (.object σ.heap.objects.length)]).set lc (some (.int (i + 1)))
        heap := σ.heap.addObject w.anyClass (answer i b) }) := by
  have hlc := (List.getElem?_eq_some_iff.1 h2).1
  have hls := (List.getElem?_eq_some_iff.1 h3).1
  have e1 : (σ.store ++ [some f])[lc]? = some (some (.int i)) := by rw [List.getElem?_append_left hlc, h2]
  have e2 : (σ.store ++ [some f])[ls]? = some (some (.object o)) := by rw [List.getElem?_append_left hls, h3]
  have e3 : (σ.store ++ [some f, some (.object σ.heap.objects.length)])[lc]? = some (some (.int i)) := by
    rw [List.getElem?_append_left hlc, h2]
  have e4 : ((σ.store ++ [some f, some (.object σ.heap.objects.length)]).set lc (some (.int (i + 1))))[σ.store.length + 1]? =
      some (some (.object σ.heap.objects.length)) := by
    rw [List.getElem?_set_ne (by omega)]
    simp
  unfold Src.invoke
  by_cases hib : i < b <;>
  simp [Src.bindArgs, Src.bindParams, bind, S.bind, Src.alloc, rangeNext, Src.bodyStmts, Src.bodyResult, Src.hoist, Src.hoisted,
      pure, S.pure, Src.result, Src.evalStmts, Src.eval, Src.evalOpt, Src.evalFields, Src.block, S.guard, Src.declares, Src.declaresOpt, S.operand, Src.strictOp,
      Src.binary, binDecide, Src.truth, Src.readVar, List.lookup, Src.readLoc, Src.fieldOf, h4, Src.onHeap, newObject_eq, Src.setFieldOf,
      asObject_new, setField_new, Src.chainEnd, Src.closed, Src.spine, S.noExit, Src.intResult, hi, Src.writeLoc, Src.finish, Src.Closure.role, e1, e2, e3, e4,
      Src.updateOp, Src.checkVar, hib, answer, ValueMap.insert, -List.getElem?_eq_getElem, -getElem?_pos, -List.getElem?_set_ne]

theorem next_step {w : World} {known : Src.Known} {call : Src.Calls} {n : Nat} {σ : State} {k lc ls o : Nat} {i b : Int}
    (h : Counting σ k lc ls o i b) (hi : InI64 (i + 1)) :
    Src.apply w known call n (Src.closure k) [] σ = (.ok (.object σ.heap.objects.length), stepped w k lc i b σ) := by
  obtain ⟨⟨ρ, h1⟩, h2, h3, h4⟩ := h
  unfold Src.apply
  simp only [Src.closure, callTarget, h1]
  exact next_body _ h2 h3 h4 hi

/-! ## Making a range and its iterator -/

theorem new_body {w : World} {call : Src.Calls} {n : Nat} {σ : State} {h : Heap} {c : Nat} {ρ : SEnv} (a b : Value)
    (hh : σ.heap = h.addObject c []) :
    Src.invoke w call n ⟨.constructor, [⟨"self", none⟩, ⟨"start", none⟩, ⟨"end", none⟩], none,
        .block [.assign .assign (.field (.ident "self") "start") (.ident "start")]
          (some (.assign .assign (.field (.ident "self") "end") (.ident "end"))), ρ⟩ (.object h.objects.length) [a, b] σ =
      (.ok (.object h.objects.length), { σ with
        store := σ.store ++ [some (.object h.objects.length), some a, some b]
        heap := h.addObject c [("end", b), ("start", a)] }) := by
  have e1 : (σ.store ++ [some (.object h.objects.length), some a, some b])[σ.store.length]? = some (some (.object h.objects.length)) := by simp
  have e2 : (σ.store ++ [some (.object h.objects.length), some a, some b])[σ.store.length + 1]? = some (some a) := by simp
  have e3 : (σ.store ++ [some (.object h.objects.length), some a, some b])[σ.store.length + 2]? = some (some b) := by simp
  have e4 : List.length ρ + 1 + 1 + 1 - List.length ρ = 3 := by omega
  unfold Src.invoke
  simp [Src.bindArgs, Src.bindParams, bind, S.bind, Src.alloc, Src.bodyStmts, Src.bodyResult, Src.hoist, Src.hoisted,
      pure, S.pure, Src.result, Src.evalStmts, Src.eval, Src.evalOpt, S.guard, S.operand, Src.readVar, List.lookup, Src.readLoc,
      Src.setFieldOf, hh, asObject_new, setField_new, Src.finish, Src.Closure.role, e1, e2, e3, e4,
      Src.updateOp, Src.checkVar, ValueMap.insert, Src.noFn, Src.noFnAny, Src.noFnOpt,
      -List.getElem?_eq_getElem, -getElem?_pos, -List.getElem?_set_ne]

/-- The closure that the method `iter` makes. -/
def countingFn (σ : State) (ρ : SEnv) : Src.Closure :=
  ⟨.function, [], none, rangeNext .lessThan "is_done", ("current", σ.store.length + 1) :: ("self", σ.store.length) :: ρ⟩

theorem iter_body {w : World} {call : Src.Calls} {n : Nat} {σ : State} {o : Nat} {ρ : SEnv} {v : Value}
    (hv : σ.heap.ownField "start" (.object o) = some v) :
    Src.invoke w call n ⟨.method, [⟨"self", none⟩], none,
        .block [.varDecl (.singular "current") true (.field (.ident "self") "start") none]
          (some (.object [("next", .anonFn [] none (rangeNext .lessThan "is_done"))])), ρ⟩ (.object o) [] σ =
      (.ok (.object σ.heap.objects.length), { σ with
        store := σ.store ++ [some (.object o), some v]
        fns := σ.fns ++ [countingFn σ ρ]
        heap := σ.heap.addObject w.anyClass [("next", Src.closure σ.fns.length)] }) := by
  have e1 : (σ.store ++ [some (.object o)])[σ.store.length]? = some (some (.object o)) := by simp
  unfold Src.invoke
  simp [Src.bindArgs, Src.bindParams, bind, S.bind, Src.alloc, Src.bodyStmts, Src.bodyResult, Src.hoist, Src.hoisted,
      pure, S.pure, Src.result, Src.evalStmts, Src.eval, Src.evalOpt, Src.evalFields, S.guard, S.operand, Src.readVar, List.lookup, Src.readLoc, Src.newFn,
      Src.setFieldOf, Src.fieldOf, hv, Src.onHeap, newObject_eq, asObject_new, setField_new, Src.finish, Src.Closure.role, e1, Src.chainEnd, Src.closed, Src.spine, S.noExit,
      Src.checkVar, ValueMap.insert, countingFn,
      -List.getElem?_eq_getElem, -getElem?_pos, -List.getElem?_set_ne]

/-! ## Rounds -/

/-- The heap has more objects, and what was there is unchanged. -/
structure Heap.More (h h' : Heap) : Prop where
  maps : h.maps <+: h'.maps
  objects : h.objects <+: h'.objects
  arrays : h'.arrays = h.arrays
  classes : h'.classes = h.classes

/-- A step that the program cannot see, except that it may change the location `l`: there are more variables and objects. -/
structure Unseen (l : Nat) (σ σ' : State) : Prop where
  heap : σ.heap.More σ'.heap
  store : ∀ i v, i ≠ l → σ.store[i]? = some v → σ'.store[i]? = some v
  fns : σ'.fns = σ.fns
  globals : σ'.globals = σ.globals
  modules : σ'.modules = σ.modules

/-- The rounds of a loop for the given values, one after the other and each once, until they are used up or a round does not
end normally; between the rounds are only unseen steps. -/
inductive Visits (l : Nat) (round : Value → S Unit) : List Value → State → Out Unit × State → Prop where
  | done {σ σ' : State} (h : Unseen l σ σ') : Visits l round [] σ (.ok (), σ')
  | more {x : Value} {xs : List Value} {σ σ1 σ2 : State} {r : Out Unit × State} (h : Unseen l σ σ1) (hr : round x σ1 = (.ok (), σ2))
    (hs : Visits l round xs σ2 r) : Visits l round (x :: xs) σ r
  | stop {x : Value} {xs : List Value} {σ σ1 σ2 : State} {o : Out Unit} (h : Unseen l σ σ1) (hr : round x σ1 = (o, σ2)) (ho : o ≠ .ok ()) :
    Visits l round (x :: xs) σ (o, σ2)

/-- The round of a loop with the variable `x` for the value `v`. -/
def bodyRound (x : String) (ρ : SEnv) (body : SEnv → S (Value × SEnv)) (v : Value) : S Unit :=
  S.operand do
    let l ← Src.alloc (some v)
    let _ ← body ((x, l) :: ρ)
    pure ()

theorem addObject_more (h : Heap) (c : Nat) (fs : ValueMap) : h.More (h.addObject c fs) :=
  ⟨List.prefix_append _ _, List.prefix_append _ _, rfl, rfl⟩

theorem getElem?_more {α : Type} {l : List α} {i : Nat} {v : α} (h : l[i]? = some v) (x : List α) : (l ++ x)[i]? = some v := by
  rw [List.getElem?_append_left (List.getElem?_eq_some_iff.1 h).1, h]

theorem stepped_unseen (w : World) (k lc : Nat) (i b : Int) (σ : State) : Unseen lc σ (stepped w k lc i b σ) where
  heap := addObject_more _ _ _
  store := fun j v hj h => by
    show ((σ.store ++ _).set lc _)[j]? = _
    rw [List.getElem?_set_ne (Ne.symm hj)]
    exact getElem?_more h _
  fns := rfl
  globals := rfl
  modules := rfl

theorem Counting.step {σ : State} {k lc ls o : Nat} {i b : Int} (h : Counting σ k lc ls o i b) (w : World) :
    Counting (stepped w k lc i b σ) k lc ls o (i + 1) b where
  fn := h.fn
  current := by
    show ((σ.store ++ _).set lc _)[lc]? = _
    have := (List.getElem?_eq_some_iff.1 h.current).1
    rw [List.getElem?_set_self (by simp; omega)]
  self := by
    have hne : ls ≠ lc := by
      rintro rfl
      have := h.self.symm.trans h.current
      cases this
    exact (stepped_unseen w k lc i b σ).store ls _ hne h.self
  stop := ownField_old h.stop _ _

/-- A round of the loop over the iterator of a range. -/
theorem range_iterRound {w : World} {known : Src.Known} {src : Src.Sources} {N : Nat} {σ : State} {k lc ls o : Nat} {i b : Int} {x : String} {ρ : SEnv}
    {body : SEnv → S (Value × SEnv)} (h : Counting σ k lc ls o i b) (hi : InI64 (i + 1)) :
    S.operand (Src.iterRound w (Src.calls w known src (N + 1)) x (Src.closure k) ρ body) σ =
      if i < b then (bodyRound x ρ body (.int i) >>= fun _ => pure (some ())) (stepped w k lc i b σ)
      else (.ok none, stepped w k lc i b σ) := by
  have hn := next_step (w := w) (known := known) (call := Src.calls w known src N) (n := N) h hi
  have hd := ownField_new σ.heap w.anyClass (answer i b) "is_done"
  have hv := ownField_new σ.heap w.anyClass (answer i b) "value"
  have hh : (stepped w k lc i b σ).heap = σ.heap.addObject w.anyClass (answer i b) := rfl
  have hc : (Src.calls w known src (N + 1)).call (Src.closure k) [] σ = (.ok (.object σ.heap.objects.length), stepped w k lc i b σ) := hn
  have hf : Src.fieldOf w "is_done" (.object σ.heap.objects.length) (stepped w k lc i b σ) = (.ok (.bool (decide (¬ i < b))), stepped w k lc i b σ) := by
    unfold Src.fieldOf
    rw [hh, hd]
    by_cases hib : i < b <;> simp [answer, hib, ValueMap.get, List.lookup]
  unfold S.operand Src.iterRound
  rw [S.bind_ok_eq hc, S.bind_ok_eq hf, S.bind_ok_eq (show Src.truth (.bool (decide (¬ i < b))) (stepped w k lc i b σ) = (.ok (decide (¬ i < b)), stepped w k lc i b σ) from rfl)]
  by_cases hib : i < b
  · have hg : Src.fieldOf w "value" (.object σ.heap.objects.length) (stepped w k lc i b σ) = (.ok (.int i), stepped w k lc i b σ) := by
      unfold Src.fieldOf
      rw [hh, hv]
      simp [answer, hib, ValueMap.get, List.lookup]
    rw [if_pos hib, if_neg (by simp [hib]), S.bind_ok_eq hg]
    unfold bodyRound S.operand
    simp only [bind, S.bind, Src.alloc, pure, S.pure]
    cases body ((x, (stepped w k lc i b σ).store.length) :: ρ) { stepped w k lc i b σ with store := (stepped w k lc i b σ).store ++ [some (.int i)] } with
    | mk o σ' => cases o <;> rfl
  · rw [if_neg hib, if_pos (by simp [hib])]
    rfl

/-- A round keeps the iterator, and the condition `J`. -/
structure Keeps (w : World) (J : State → Prop) (k lc ls o : Nat) (b : Int) (round : Value → S Unit) : Prop where
  step : ∀ σ i, J σ → J (stepped w k lc i b σ)
  round : ∀ σ i σ', Counting σ k lc ls o (i + 1) b → J σ → round (.int i) σ = (.ok (), σ') → Counting σ' k lc ls o (i + 1) b ∧ J σ'

/-- A loop over the iterator of a range: its rounds are those of the numbers of the range. -/
theorem counting_visits {w : World} {known : Src.Known} {src : Src.Sources} {N : Nat} {k lc ls o : Nat} {b : Int} {x : String} {ρ : SEnv}
    {body : SEnv → S (Value × SEnv)} {J : State → Prop} (hb : InI64 (b + 1)) (keeps : Keeps w J k lc ls o b (bodyRound x ρ body)) :
    ∀ (n : Nat) {i : Int} {σ : State}, Counting σ k lc ls o i b → J σ → InI64 i → InI64 (i + 1) → (b - i).toNat < n →
      Visits lc (bodyRound x ρ body) ((intsBelow i b).map .int) σ
        (Src.iter ρ none (fun _ => S.operand (Src.iterRound w (Src.calls w known src (N + 1)) x (Src.closure k) ρ body)) n () σ)
  | 0, _, _, _, _, _, _, hn => by omega
  | n + 1, i, σ, h, hj, hi0, hi, hn => by
    have hr := range_iterRound (w := w) (known := known) (src := src) (N := N) (x := x) (ρ := ρ) (body := body) h hi
    unfold Src.iter
    rw [hr]
    by_cases hib : i < b
    · rw [if_pos hib, intsBelow_cons hib, List.map_cons]
      cases hbody : bodyRound x ρ body (.int i) (stepped w k lc i b σ) with
      | mk out σ' =>
        have hnj : ∀ j, out ≠ .jump j := by
          rintro j rfl
          unfold bodyRound S.operand at hbody
          split at hbody
          · cases hbody
          · next hx => exact hx _ _ hbody
        cases out with
        | ok u =>
          rw [S.bind_ok_eq hbody]
          obtain ⟨k1, k2⟩ := keeps.round _ i _ (h.step w) (keeps.step σ i hj) hbody
          exact .more (stepped_unseen w k lc i b σ) hbody
            (counting_visits hb keeps n k1 k2 hi (by unfold InI64 at *; omega) (by omega))
        | jump j => exact absurd rfl (hnj j)
        | _ =>
          simp only [bind, S.bind, hbody]
          exact .stop (stepped_unseen w k lc i b σ) hbody (by simp)
    · rw [if_neg hib, intsBelow_empty hib]
      exact .done (stepped_unseen w k lc i b σ)

/-! ## The classes of the prelude -/

/-- The class of ranges and the operator `..` are those of the prelude. -/
structure HasRanges (w : World) (σ : State) (c : Nat) : Prop where
  int : (σ.heap.classOf w (.int 0)).bind (σ.heap.method · "#range_exclusive") = none
  op : ∃ k l ρ, σ.globals.get "#range_exclusive" = some (Src.closure k) ∧
    σ.fns[k]? = some ⟨.function, [⟨"start", none⟩, ⟨"end", none⟩], none,
      .block [] (some (.call (.ident "Range") [.ident "start", .ident "end"])), ρ⟩ ∧
    ρ.lookup "Range" = some l ∧ σ.store[l]? = some (some (.cls c))
  new : ∃ k ρ, σ.heap.method c "new" = some (Src.closure k) ∧ σ.fns[k]? = some
    ⟨.constructor, [⟨"self", none⟩, ⟨"start", none⟩, ⟨"end", none⟩], none,
        .block [.assign .assign (.field (.ident "self") "start") (.ident "start")]
          (some (.assign .assign (.field (.ident "self") "end") (.ident "end"))), ρ⟩
  iter : ∃ k ρ, σ.heap.method c "iter" = some (Src.closure k) ∧ σ.fns[k]? = some
    ⟨.method, [⟨"self", none⟩], none,
        .block [.varDecl (.singular "current") true (.field (.ident "self") "start") none]
          (some (.object [("next", .anonFn [] none (rangeNext .lessThan "is_done"))])), ρ⟩

/-- The state after making a range. -/
def ranged (f : Value) (c : Nat) (a b : Int) (σ : State) : State :=
  { σ with
    store := σ.store ++ [some f, some (.int a), some (.int b), some (.object σ.heap.objects.length), some (.int a), some (.int b)]
    heap := σ.heap.addObject c [("end", .int b), ("start", .int a)] }

theorem method_eq (h : Heap) (c : Nat) (fs : ValueMap) (d : Nat) (key : String) : (h.addObject c fs).method d key = h.method d key := rfl

/-- The operator `..` on integers makes an object with the two bounds. -/
theorem make_range {w : World} {known : Src.Known} {src : Src.Sources} {N c : Nat} {σ : State} (h : HasRanges w σ c) (a b : Int) :
    ∃ f, Src.binary w (Src.calls w known src (N + 3)) .rangeExclusive (.int a) (.int b) σ =
      (.ok (.object σ.heap.objects.length), ranged f c a b σ) := by
  obtain ⟨ko, l, ρ, o1, o2, o3, o4⟩ := h.op
  obtain ⟨kn, ρn, n1, n2⟩ := h.new
  refine ⟨Src.closure ko, ?_⟩
  have hl : l < σ.store.length := (List.getElem?_eq_some_iff.1 o4).1
  have e1 : ∀ x, (σ.store ++ x)[l]? = some (some (.cls c)) := fun x => getElem?_more o4 x
  have e2 : ∀ f, (σ.store ++ [some f, some (.int a), some (.int b)])[σ.store.length + 1]? = some (some (.int a)) := by simp
  have e3 : ∀ f, (σ.store ++ [some f, some (.int a), some (.int b)])[σ.store.length + 2]? = some (some (.int b)) := by simp
  have hf : Src.fieldOf w "#range_exclusive" (.int a) σ = (.ok .null, σ) := by
    have h0 : σ.heap.ownField "#range_exclusive" (.int a) = none := rfl
    unfold Src.fieldOf
    rw [h0, show (σ.heap.classOf w (.int a)) = σ.heap.classOf w (.int 0) from rfl, h.int]
    simp
  have hnew : ∀ σ' : State, σ'.heap = σ.heap → σ'.fns = σ.fns →
      (Src.calls w known src (N + 2)).call (.cls c) [.int a, .int b] σ' = (.ok (.object σ.heap.objects.length),
        { σ' with store := σ'.store ++ [some (.object σ.heap.objects.length), some (.int a), some (.int b)],
                  heap := σ.heap.addObject c [("end", .int b), ("start", .int a)] }) := by
    intro σ' hh hfn
    show Src.apply w known (Src.calls w known src (N + 1)) (N + 1) (.cls c) [.int a, .int b] σ' = _
    unfold Src.apply
    simp only [callTarget, bind, S.bind, Src.onHeap, newObject_eq, Src.construct, hh, method_eq, n1]
    show Src.apply w known (Src.calls w known src N) N (.fnBound (.object σ.heap.objects.length) (Src.closure kn)) _ _ = _
    unfold Src.apply
    simp only [callTarget, Src.closure, hfn, n2, Option.getD]
    exact new_body (σ := { σ' with heap := σ.heap.addObject c [], fns := σ.fns }) (h := σ.heap) _ _ rfl
  unfold Src.binary
  simp only [binDecide, Src.overloaded]
  rw [S.bind_ok_eq hf]
  show (match σ.globals.get "#range_exclusive" with
    | some f => (Src.calls w known src (N + 3)).call f [.int a, .int b] σ
    | none => (.err (.operatorUndefined "#range_exclusive"), σ)) = _
  rw [o1]
  show Src.apply w known (Src.calls w known src (N + 2)) (N + 2) (Src.closure ko) [.int a, .int b] σ = _
  unfold Src.apply
  simp only [Src.closure, callTarget, o2, Option.getD]
  unfold Src.invoke
  simp [Src.bindArgs, Src.bindParams, bind, S.bind, Src.alloc, Src.bodyStmts, Src.bodyResult, Src.hoist, Src.hoisted,
      pure, S.pure, Src.result, Src.evalStmts, Src.eval, Src.evalOpt, Src.evalAll, S.guard, S.operand, Src.readVar, List.lookup, Src.readLoc,
      Src.finish, Src.Closure.role, e1, e2, e3, o3, Src.chainEnd, Src.closed, Src.spine, S.noExit, Src.checkVar, hnew, ranged,
      -List.getElem?_eq_getElem, -getElem?_pos, -List.getElem?_set_ne]

/-! ## Loops over ranges in variables -/

/-- The object is a range. -/
structure IsRange (w : World) (σ : State) (c o : Nat) (a b : Int) : Prop where
  cls : σ.heap.classOf w (.object o) = some c
  start : σ.heap.ownField "start" (.object o) = some (.int a)
  stop : σ.heap.ownField "end" (.object o) = some (.int b)
  iter : σ.heap.ownField "iter" (.object o) = none

/-- The state at the beginning of a loop over a range: there are an iterator and its function, the counter and two variables that
nobody sees. -/
def iterated (w : World) (o : Nat) (a : Int) (ρ : SEnv) (σ : State) : State :=
  { σ with
    store := σ.store ++ [some (.object o), some (.int a)]
    fns := σ.fns ++ [countingFn σ ρ]
    heap := σ.heap.addObject w.anyClass [("next", Src.closure σ.fns.length)] }

/-- **C61.**  A loop over an exclusive range that is in a variable, or is the value of any other expression: its rounds are those of
the numbers of the range, in order, each once, until a round does not end normally. -/
theorem range_object_loop {w : World} {known : Src.Known} {src : Src.Sources} {N n c o : Nat} {a b : Int} {x : String} {ρ : SEnv} {σ0 σ : State}
    {source : S (Value × SEnv)} {body : SEnv → S (Value × SEnv)} {J : State → Prop} (h : HasRanges w σ c) (hr : IsRange w σ c o a b)
    (hs : source σ0 = (.ok (.object o, ρ), σ)) (ha : InI64 a) (ha1 : InI64 (a + 1)) (hb : InI64 (b + 1)) (hn : (b - a).toNat < n)
    (hj : ∀ ρ, J (iterated w o a ρ σ)) (keeps : Keeps w J σ.fns.length (σ.store.length + 1) σ.store.length o b (bodyRound x ρ body)) :
    ∃ ρi r, Visits (σ.store.length + 1) (bodyRound x ρ body) ((intsBelow a b).map .int) (iterated w o a ρi σ) r ∧
      Src.iterLoop w (Src.calls w known src (N + 1)) n x source body σ0 =
        ((fun _ => r) >>= fun _ => pure (.unit, ρ) : S (Value × SEnv)) (iterated w o a ρi σ) := by
  obtain ⟨ki, ρi, i1, i2⟩ := h.iter
  refine ⟨ρi, _, counting_visits (w := w) (known := known) (src := src) (N := N) (n := n) hb keeps (σ := iterated w o a ρi σ)
    { fn := ⟨ρi, ?_⟩, current := ?_, self := ?_, stop := ownField_old hr.stop _ _ } (hj ρi) ha ha1 hn, ?_⟩
  · show (σ.fns ++ [countingFn σ ρi])[σ.fns.length]? = _
    simp [countingFn]
  · show (σ.store ++ [some (.object o), some (.int a)])[σ.store.length + 1]? = _
    simp
  · show (σ.store ++ [some (.object o), some (.int a)])[σ.store.length]? = _
    simp
  · have h1 : Src.fieldOf w "iter" (.object o) σ = (.ok (.fnBound (.object o) (Src.closure ki)), σ) := by
      unfold Src.fieldOf
      rw [hr.iter, hr.cls]
      simp [i1]
    have h2 : (Src.calls w known src (N + 1)).call (.fnBound (.object o) (Src.closure ki)) [] σ = (.ok (.object σ.heap.objects.length), iterated w o a ρi σ) := by
      show Src.apply w known (Src.calls w known src N) N (.fnBound (.object o) (Src.closure ki)) [] σ = _
      unfold Src.apply
      simp only [callTarget, Src.closure, i2, Option.getD]
      exact iter_body hr.start
    have h3 : Src.fieldOf w "next" (.object σ.heap.objects.length) (iterated w o a ρi σ) = (.ok (Src.closure σ.fns.length), iterated w o a ρi σ) := by
      unfold Src.fieldOf
      rw [show (iterated w o a ρi σ).heap = σ.heap.addObject w.anyClass [("next", Src.closure σ.fns.length)] from rfl, ownField_new]
      rfl
    unfold Src.iterLoop
    rw [S.bind_ok_eq hs]
    show (Src.fieldOf w "iter" (.object o) >>= fun f => _) σ = _
    rw [S.bind_ok_eq h1, S.bind_ok_eq h2, S.bind_ok_eq h3]
    rfl

/-- The state after `let r = a..b`. -/
def stored (f : Value) (c : Nat) (a b : Int) (σ : State) : State :=
  { ranged f c a b σ with store := (ranged f c a b σ).store ++ [some (.object σ.heap.objects.length)] }

theorem HasRanges.later {w : World} {σ σ' : State} {c : Nat} (h : HasRanges w σ c) (hm : σ.heap.More σ'.heap) (hs : σ.store <+: σ'.store)
    (hf : σ.fns <+: σ'.fns) (hg : σ'.globals = σ.globals) : HasRanges w σ' c := by
  obtain ⟨h1, h2, h3, h4⟩ := hm
  have hmeth : ∀ d key, σ'.heap.method d key = σ.heap.method d key := by
    intro d key
    unfold Heap.method
    rw [h4]
  refine { int := ?_, op := ?_, new := ?_, iter := ?_ }
  · have := h.int
    rw [show σ'.heap.classOf w (.int 0) = σ.heap.classOf w (.int 0) from rfl]
    rw [show (fun x => σ'.heap.method x "#range_exclusive") = (fun x => σ.heap.method x "#range_exclusive") from funext fun d => hmeth d _]
    exact this
  · obtain ⟨k, l, ρ, o1, o2, o3, o4⟩ := h.op
    exact ⟨k, l, ρ, by rw [hg]; exact o1, prefix_get_some hf o2, o3, prefix_get_some hs o4⟩
  · obtain ⟨k, ρ, o1, o2⟩ := h.new
    exact ⟨k, ρ, by rw [hmeth]; exact o1, prefix_get_some hf o2⟩
  · obtain ⟨k, ρ, o1, o2⟩ := h.iter
    exact ⟨k, ρ, by rw [hmeth]; exact o1, prefix_get_some hf o2⟩

/-- `let r = a..b` -/
theorem let_range {w : World} {known : Src.Known} {src : Src.Sources} {N n c : Nat} {a b : Int} {r : String} {m : Bool} {ea eb : Expr} {ρ : SEnv} {σ : State}
    {role : Src.Role} (h : HasRanges w σ c) 
    (ha : Src.eval w (Src.calls w known src (N + 3)) role n false ea ρ σ = (.ok (.int a, ρ), σ))
    (hb : Src.eval w (Src.calls w known src (N + 3)) role n false eb ρ σ = (.ok (.int b, ρ), σ)) :
    ∃ f v, Src.eval w (Src.calls w known src (N + 3)) role n false (.varDecl (.singular r) m (.binary .rangeExclusive ea eb) none) ρ σ =
      (.ok (v, (r, σ.store.length + 6) :: ρ), stored f c a b σ) := by
  obtain ⟨f, hf⟩ := make_range (w := w) (known := known) (src := src) (N := N) h a b
  refine ⟨f, .object σ.heap.objects.length, ?_⟩
  have e : Src.eval w (Src.calls w known src (N + 3)) role n false (.binary .rangeExclusive ea eb) ρ σ =
      (.ok (.object σ.heap.objects.length, ρ), ranged f c a b σ) := by
    have ho : S.operand (Src.eval w (Src.calls w known src (N + 3)) role n false eb ρ) σ = (.ok (.int b, ρ), σ) := by
      unfold S.operand
      rw [hb]
    simp only [Src.eval, Src.strictOp]
    rw [S.bind_ok_eq ha]
    simp only []
    rw [S.bind_ok_eq ho]
    simp only []
    rw [S.bind_ok_eq hf]
    rfl
  generalize Expr.binary .rangeExclusive ea eb = e' at e ⊢
  simp only [Src.eval]
  rw [S.bind_ok_eq e]
  have hl : (ranged f c a b σ).store.length = σ.store.length + 6 := by simp [ranged]
  rw [← hl]
  rfl

theorem stored_isRange {w : World} {c : Nat} (a b : Int) (f : Value) (σ : State) : IsRange w (stored f c a b σ) c σ.heap.objects.length a b where
  cls := by
    show (σ.heap.addObject c _).classOf w _ = _
    unfold Heap.classOf
    rw [asObject_new]
    rfl
  start := ownField_new _ _ _ _
  stop := ownField_new _ _ _ _
  iter := ownField_new _ _ _ _

/-- The prelude has the class of ranges. -/
theorem boot_ranges (constant : String → Float) (lib : FloatLib) (loader : String → Except RtErr Bytecode)
    (fmod : Float → Float → Float) (checks debug : Bool) (src : Src.Sources) :
    HasRanges (tool lib loader fmod checks debug) (Src.boot constant lib loader fmod checks debug src).2 10 where
  int := by cases checks <;> cases debug <;> kernel_rfl
  op := ⟨4, 1, (((Src.boot constant lib loader fmod checks debug src).2.fns[4]?).map (·.env)).getD [],
    by cases checks <;> cases debug <;> kernel_rfl, by cases checks <;> cases debug <;> kernel_rfl,
    by cases checks <;> cases debug <;> kernel_rfl, by cases checks <;> cases debug <;> kernel_rfl⟩
  new := ⟨0, (((Src.boot constant lib loader fmod checks debug src).2.fns[0]?).map (·.env)).getD [],
    by cases checks <;> cases debug <;> kernel_rfl, by cases checks <;> cases debug <;> kernel_rfl⟩
  iter := ⟨1, (((Src.boot constant lib loader fmod checks debug src).2.fns[1]?).map (·.env)).getD [],
    by cases checks <;> cases debug <;> kernel_rfl, by cases checks <;> cases debug <;> kernel_rfl⟩

/-- **C61.**  A loop over a range itself: its rounds are those of the numbers of the range as well. -/
theorem direct_visits {w : World} {call : Src.Calls} {x : String} {ρ : SEnv} {body : SEnv → S (Value × SEnv)} {b : Int} (l : Nat)
    (hb : InI64 b) (nojump : ∀ ρ σ j, (body ρ σ).1 ≠ .jump j)
    (keeps : ∀ i σ σ', bodyRound x ρ body (.int i) σ = (.ok (), σ') → σ'.store[σ.store.length]? = some (some (.int i))) :
    ∀ (n : Nat) (i : Int) (σ : State), InI64 i → (b - i).toNat < n →
      Visits l (bodyRound x ρ body) ((intsBelow i b).map .int) σ
        (Src.iter ρ none (fun v => S.noReturn (Src.rangeRound w call .lessThan x (.int b) ρ body v)) n (.int i) σ)
  | 0, _, _, _, hn => by omega
  | n + 1, i, σ, hi, hn => by
    have hc : ∀ σ, Src.binary w call .lessThan (.int i) (.int b) σ = (.ok (.bool (decide (i < b))), σ) := fun σ => rfl
    unfold Src.iter S.noReturn Src.rangeRound
    rw [S.bind_ok_eq (show Src.alloc (some (.int i)) σ = (.ok σ.store.length, { σ with store := σ.store ++ [some (.int i)] }) from rfl),
      S.bind_ok_eq (hc _), S.bind_ok_eq (show Src.truth (.bool (decide (i < b))) _ = (.ok (decide (i < b)), _) from rfl)]
    by_cases hib : i < b
    · simp only [hib, decide_true, if_true]
      rw [intsBelow_cons hib, List.map_cons]
      have hu : Unseen l σ σ := ⟨⟨List.prefix_refl _, List.prefix_refl _, rfl, rfl⟩, fun _ _ _ h => h, rfl, rfl, rfl⟩
      have hk := keeps i σ
      have hround : bodyRound x ρ body (.int i) σ = S.operand (do
        let _ ← body ((x, σ.store.length) :: ρ)
        pure ()) { σ with store := σ.store ++ [some (.int i)] } := rfl
      rw [hround] at hk
      cases hbody : body ((x, σ.store.length) :: ρ) { σ with store := σ.store ++ [some (.int i)] } with
      | mk out σ' =>
        cases out with
        | ok u =>
          simp only [S.operand, S.bind, bind, hbody, pure, S.pure] at hk hround
          have hk := hk σ' rfl
          have hi1 : InI64 (i + 1) := by unfold InI64 at *; omega
          have hv : Src.intResult w (i + 1) σ' = (.ok (.int (i + 1)), σ') := by
            unfold Src.intResult
            rw [if_pos hi1]
            rfl
          simp only [S.bind, bind, hbody, Src.readLoc, hk, Src.binary, binDecide, hv]
          exact .more hu hround (direct_visits l hb nojump keeps n (i + 1) σ' hi1 (by omega))
        | jump j => exact absurd (by rw [hbody]) (nojump ((x, σ.store.length) :: ρ) { σ with store := σ.store ++ [some (.int i)] } j)
        | _ =>
          simp only [S.operand, S.bind, bind, hbody] at hround
          simp only [S.bind, bind, hbody]
          exact .stop hu hround (by simp)
    · simp only [hib, decide_false]
      rw [intsBelow_empty hib]
      exact .done ⟨⟨List.prefix_refl _, List.prefix_refl _, rfl, rfl⟩, fun j v _ h => getElem?_more h _, rfl, rfl, rfl⟩

/-- What a computation gives that ends with `a` if the one before it ends normally. -/
def after {α : Type} (a : α) (r : Out Unit × State) : Out α × State := ((fun _ => r) >>= fun _ => pure a : S α) r.2

/-- `let r = ea..eb` and a loop over `r`. -/
def storedLoop (r x : String) (ea eb body : Expr) : List Expr :=
  [.varDecl (.singular r) false (.binary .rangeExclusive ea eb) none, .forLoop x (.ident r) body]

/-- **C61.**  After the prelude, a loop over an exclusive range that was stored in a variable: its rounds are those of the numbers
from the first bound to before the second, in order and each once, until a round does not end normally.  The rounds do not see
that there is an iterator; `J` is any condition that the rounds need.
Missing for all of C61: the loop over a stored inclusive range is an error (`stored_inclusive_fails`), and so is the one over an
exclusive range up to the greatest integer, for its counter goes one beyond (`stored_range_overflows`). -/
theorem stored_range_visits_partial {w : World} {known : Src.Known} {src : Src.Sources} {N n c : Nat} {a b : Int} {r x : String}
    {ea eb body : Expr} {ρ : SEnv} {σ : State} {role : Src.Role} {J : State → Prop} (h : HasRanges w σ c)
    (hea : Src.eval w (Src.calls w known src (N + 3)) role n false ea ρ σ = (.ok (.int a, ρ), σ))
    (heb : Src.eval w (Src.calls w known src (N + 3)) role n false eb ρ σ = (.ok (.int b, ρ), σ))
    (ha : InI64 a) (ha1 : InI64 (a + 1)) (hb : InI64 (b + 1)) (hn : (b - a).toNat < n)
    (hj : ∀ f ρi, J (iterated w σ.heap.objects.length a ρi (stored f c a b σ)))
    (keeps : Keeps w J σ.fns.length (σ.store.length + 8) (σ.store.length + 7) σ.heap.objects.length b
      (bodyRound x ((r, σ.store.length + 6) :: ρ) (Src.eval w (Src.calls w known src (N + 3)) role n false body))) :
    ∃ f ρi res, Visits (σ.store.length + 8)
        (bodyRound x ((r, σ.store.length + 6) :: ρ) (Src.eval w (Src.calls w known src (N + 3)) role n false body))
        ((intsBelow a b).map .int) (iterated w σ.heap.objects.length a ρi (stored f c a b σ)) res ∧
      Src.evalStmts w (Src.calls w known src (N + 3)) role n (storedLoop r x ea eb body) ρ σ =
        after ((r, σ.store.length + 6) :: ρ) res := by
  obtain ⟨f, v, hv⟩ := let_range (r := r) (m := false) h hea heb
  have hst : (stored f c a b σ).store.length = σ.store.length + 7 := by simp [stored, ranged]
  have hl : (stored f c a b σ).store[σ.store.length + 6]? = some (some (.object σ.heap.objects.length)) := by simp [stored, ranged]
  have hs : Src.eval w (Src.calls w known src (N + 3)) role n false (.ident r) ((r, σ.store.length + 6) :: ρ) (stored f c a b σ) =
      (.ok (.object σ.heap.objects.length, (r, σ.store.length + 6) :: ρ), stored f c a b σ) := by
    simp [Src.eval, Src.readVar, List.lookup, bind, S.bind, Src.readLoc, hl, pure, S.pure]
  have hrng : HasRanges w (stored f c a b σ) c := h.later (addObject_more _ _ _)
    (by simp [stored, ranged]) (List.prefix_refl _) rfl
  obtain ⟨ρi, res, hvis, he⟩ := range_object_loop (w := w) (known := known) (src := src) (N := N + 2) (n := n) (x := x)
    (body := Src.eval w (Src.calls w known src (N + 3)) role n false body) (J := J)
    hrng (stored_isRange a b f σ) hs ha ha1 hb hn (hj f) (by rw [hst]; exact keeps)
  rw [hst] at hvis
  refine ⟨f, ρi, res, hvis, ?_⟩
  unfold storedLoop
  simp only [Src.evalStmts]
  rw [S.bind_ok_eq hv]
  simp only [Src.eval] at he ⊢
  simp only [bind, S.bind] at he ⊢
  rw [he]
  unfold after
  obtain ⟨o, σ'⟩ := res
  cases o <;> rfl

/-- Conditions on the numbers visited and the state that the rounds keep. -/
theorem Visits.invariant {l : Nat} {round : Value → S Unit} (P : List Int → State → Prop) (unseen : ∀ xs σ σ', Unseen l σ σ' → P xs σ → P xs σ') :
    ∀ (ys xs : List Int) {σ : State} {r : Out Unit × State}, Visits l round (ys.map .int) σ r → P xs σ →
      (∀ zs y σ, xs ++ zs ++ [y] <+: xs ++ ys → P (xs ++ zs) σ → ∃ σ', round (.int y) σ = (.ok (), σ') ∧ P (xs ++ zs ++ [y]) σ') →
      r.1 = .ok () ∧ P (xs ++ ys) r.2
  | [], xs, σ, r, h, hp, _ => by
    cases h with
    | done h => exact ⟨rfl, by rw [List.append_nil]; exact unseen _ _ _ h hp⟩
  | y :: ys, xs, σ, r, h, hp, hround => by
    rw [List.map_cons] at h
    have h0 : ∀ σ, P xs σ → ∃ σ', round (.int y) σ = (.ok (), σ') ∧ P (xs ++ [y]) σ' := fun σ hp => by
      have := hround [] y σ (by simp) (by simpa using hp)
      simpa using this
    cases h with
    | more hu hr hs =>
      obtain ⟨σ', e1, e2⟩ := h0 _ (unseen _ _ _ hu hp)
      rw [hr] at e1
      cases e1
      have := Visits.invariant P unseen ys (xs ++ [y]) hs e2 fun zs z σ hz hp' => by
        have := hround (y :: zs) z σ (by simpa using hz) (by simpa using hp')
        simpa using this
      simpa using this
    | stop hu hr ho =>
      obtain ⟨σ', e1, e2⟩ := h0 _ (unseen _ _ _ hu hp)
      rw [hr] at e1
      cases e1
      exact absurd rfl ho

/-! ## A program -/

set_option linter.constructorNameAsVariable false

/-- `s += i` -/
def addBody : Expr := .block [] (some (.assign .add (.ident "s") (.ident "i")))

/-- A round that adds its number to a variable. -/
theorem addBody_round {w : World} {call : Src.Calls} {role : Src.Role} {n l : Nat} {ρ : SEnv} {σ : State} {i t : Int}
    (hl : ρ.lookup "s" = some l) (ht : σ.store[l]? = some (some (.int t))) :
    bodyRound "i" ρ (Src.eval w call role n false addBody) (.int i) σ =
      (Src.intResult w (t + i) >>= fun v => Src.writeLoc l v) { σ with store := σ.store ++ [some (.int i)] } := by
  have e1 : (σ.store ++ [some (.int i)])[l]? = some (some (.int t)) := getElem?_more ht _
  have e2 : (σ.store ++ [some (.int i)])[σ.store.length]? = some (some (.int i)) := by simp
  unfold bodyRound addBody
  simp [S.operand, Src.eval, Src.block, Src.hoist, Src.hoisted, Src.evalStmts, Src.evalOpt, bind, S.bind, Src.alloc, pure, S.pure, List.lookup, hl, Src.updateOp,
    Src.readLoc, e1, e2, Src.readVar, Src.binary, binDecide, Src.writeLoc, -List.getElem?_eq_getElem, -getElem?_pos]
  unfold Src.intResult
  by_cases h1 : InI64 (t + i)
  · simp [h1, pure, S.pure]
  · simp only [h1, if_false]
    cases w.checks <;> rfl

/-- The round keeps the iterator of a range that comes after the variable. -/
theorem addBody_keeps {w : World} {call : Src.Calls} {role : Src.Role} {n l k lc ls o : Nat} {b : Int} {ρ : SEnv}
    (hl : ρ.lookup "s" = some l) (h1 : l < lc) (h2 : l < ls) :
    Keeps w (fun σ => ∃ t, σ.store[l]? = some (some (.int t))) k lc ls o b (bodyRound "i" ρ (Src.eval w call role n false addBody)) where
  step := fun σ i ⟨t, ht⟩ => ⟨t, (stepped_unseen w k lc i b σ).store l _ (by omega) ht⟩
  round := fun σ i σ' hc ⟨t, ht⟩ hr => by
    rw [addBody_round hl ht] at hr
    have hv : ∃ v, σ' = { σ with store := (σ.store ++ [some (Value.int i)]).set l (some (Value.int v)) } := by
      unfold Src.intResult at hr
      by_cases hx : InI64 (t + i)
      · rw [if_pos hx] at hr
        cases hr
        exact ⟨t + i, rfl⟩
      · rw [if_neg hx] at hr
        cases hw : w.checks with
        | true => rw [hw] at hr; cases hr
        | false => rw [hw] at hr; cases hr; exact ⟨Int.bmod (t + i) (2 ^ 64), rfl⟩
    obtain ⟨v, rfl⟩ := hv
    have hlt := (List.getElem?_eq_some_iff.1 ht).1
    refine ⟨⟨hc.fn, ?_, ?_, hc.stop⟩, v, ?_⟩
    · show ((σ.store ++ [some (Value.int i)]).set l _)[lc]? = _
      rw [List.getElem?_set_ne (by omega)]
      exact getElem?_more hc.current _
    · show ((σ.store ++ [some (Value.int i)]).set l _)[ls]? = _
      rw [List.getElem?_set_ne (by omega)]
      exact getElem?_more hc.self _
    · show ((σ.store ++ [some (Value.int i)]).set l _)[l]? = _
      rw [List.getElem?_set_self (by simp; omega)]

/-- `let mut s = 0  let r = a..b  for i in r { s += i }  s` -/
def sumProgram (a b : Int) : Expr :=
  .block (.varDecl (.singular "s") true (.int 0) none :: storedLoop "r" "i" (.int a) (.int b) addBody) (some (.ident "s"))

/-- **C61.**  The sum of the numbers of a stored range, for all bounds. -/
theorem stored_range_sum_partial {w : World} {known : Src.Known} {src : Src.Sources} {n c : Nat} {a b : Int} {σ : State} (h : HasRanges w σ c)
    (ha : InI64 a) (ha1 : InI64 (a + 1)) (hb : InI64 (b + 1)) (hn : (b - a).toNat < n) (hn3 : 3 ≤ n) (hs : ∀ zs, zs <+: intsBelow a b → InI64 zs.sum) :
    ∃ σ', Src.program w known src n (sumProgram a b) σ = (.ok (.int (intsBelow a b).sum), σ') := by
  obtain ⟨N, rfl⟩ : ∃ N, n = N + 3 := ⟨n - 3, by omega⟩
  let σ1 : State := { σ with store := σ.store ++ [some (.int 0)] }
  have h1 : HasRanges w σ1 c := h.later ⟨List.prefix_refl _, List.prefix_refl _, rfl, rfl⟩ (List.prefix_append _ _) (List.prefix_refl _) rfl
  have hlen : σ1.store.length = σ.store.length + 1 := by simp [σ1]
  have hl : List.lookup "s" [("r", σ1.store.length + 6), ("s", σ.store.length)] = some σ.store.length := rfl
  have hs0 : σ1.store[σ.store.length]? = some (some (.int 0)) := by simp [σ1]
  have hit : ∀ f ρi, (iterated w σ1.heap.objects.length a ρi (stored f c a b σ1)).store[σ.store.length]? = some (some (.int 0)) := by
    intro f ρi
    simp only [iterated, stored, ranged, List.append_assoc]
    exact getElem?_more hs0 _
  obtain ⟨f, ρi, res, hv, he⟩ := stored_range_visits_partial (w := w) (known := known) (src := src) (N := N) (n := N + 3) (r := "r") (x := "i")
    (ea := .int a) (eb := .int b) (body := addBody) (ρ := [("s", σ.store.length)]) (σ := σ1) (role := .plain none) h1
    (by simp [Src.eval, pure, S.pure]) (by simp [Src.eval, pure, S.pure]) ha ha1 hb hn (J := fun σ' => ∃ t, σ'.store[σ.store.length]? = some (some (.int t)))
    (fun f ρi => ⟨0, hit f ρi⟩) (addBody_keeps hl (by omega) (by omega))
  have hsum := Visits.invariant (fun xs σ' => σ'.store[σ.store.length]? = some (some (.int xs.sum)))
    (fun xs σ2 σ3 hu hp => hu.store _ _ (by omega) hp) (intsBelow a b) [] hv (hit f ρi) (by
      intro zs y σ2 hz hp
      simp only [List.nil_append] at hz hp ⊢
      refine ⟨{ σ2 with store := (σ2.store ++ [some (Value.int y)]).set σ.store.length (some (Value.int (zs.sum + y))) }, ?_, ?_⟩
      · rw [addBody_round hl hp]
        have := hs _ hz
        simp only [List.sum_append, List.sum_cons, List.sum_nil, Int.add_zero] at this
        unfold Src.intResult
        rw [if_pos this]
        rfl
      · have hlt := (List.getElem?_eq_some_iff.1 hp).1
        show ((σ2.store ++ [some (Value.int y)]).set σ.store.length _)[σ.store.length]? = _
        rw [List.getElem?_set_self (by simp; omega)]
        simp)
  obtain ⟨r1, r2⟩ := hsum
  obtain ⟨o, σ'⟩ := res
  cases r1
  simp only [List.nil_append] at r2
  refine ⟨σ', ?_⟩
  have he' : Src.evalStmts w (Src.calls w known src (N + 3)) (.plain none) (N + 3)
      (.varDecl (.singular "s") true (.int 0) none :: storedLoop "r" "i" (.int a) (.int b) addBody) [] σ =
      (.ok [("r", σ1.store.length + 6), ("s", σ.store.length)], σ') := by
    rw [Src.evalStmts, S.bind_ok_eq (show Src.eval w (Src.calls w known src (N + 3)) (.plain none) (N + 3) false
      (.varDecl (.singular "s") true (.int 0) none) [] σ = (.ok (.int 0, [("s", σ.store.length)]), σ1) by
        simp [Src.eval, bind, S.bind, pure, S.pure, Src.alloc, Src.checkVar, σ1])]
    exact he
  have hh : Src.hoist (.varDecl (.singular "s") true (.int 0) none :: storedLoop "r" "i" (.int a) (.int b) addBody ++ [.ident "s"]) [] σ = (.ok [], σ) := rfl
  unfold Src.program sumProgram
  simp only [Src.eval, Src.block, Option.toList, S.operand]
  simp only [bind, S.bind] at hh he' ⊢
  rw [hh]
  simp only [he', Src.evalOpt, Src.eval, Src.readVar, List.lookup, bind, S.bind, Src.readLoc, r2, pure, S.pure]
  simp [Src.readLoc, r2]

section
variable (constant : String → Float) (lib : FloatLib) (loader : String → Except RtErr Bytecode)
  (fmod : Float → Float → Float) (checks debug : Bool) (src : Src.Sources)

/-- **C61.**  The command line tool runs this program to the sum of the numbers, unless the stack overflows. -/
theorem tool_range_sum_partial {a b : Int} {bc : Bytecode} (hs : SourceRel (Natives.world lib loader fmod checks debug) src)
    (h : compile .script (sumProgram a b) = .ok bc) (hf : Fits bc) (ha : InI64 a) (ha1 : InI64 (a + 1)) (hb : InI64 (b + 1))
    (hz : ∀ zs, zs <+: intsBelow a b → InI64 zs.sum) :
    Overflows (fun k => run (tool lib loader fmod checks debug) k bc) (boot constant lib loader fmod checks debug).2 ∨
      ∃ k m', run (tool lib loader fmod checks debug) k bc (boot constant lib loader fmod checks debug).2 = (.ok (.int (intsBelow a b).sum), m') := by
  obtain ⟨κ, ht⟩ := tool_program_agrees_partial constant lib loader fmod checks debug src hs h hf
  obtain ⟨σ', he⟩ := stored_range_sum_partial (known := runtimeKnown) (src := toolSources src) (n := (b - a).toNat + 3)
    (boot_ranges constant lib loader fmod checks debug src) ha ha1 hb (by omega) (by omega) hz
  refine (ht ((b - a).toNat + 3)).imp_right fun hA => ?_
  unfold sumProgram at he
  rw [he] at hA
  obtain ⟨k, u, m', hr, -, -, μ', κ', -, hv, -⟩ := hA
  cases hv
  exact ⟨k, m', hr⟩

/-- The program for the bounds 1 and 4 compiles. -/
example : (match compile .script (sumProgram 1 4) with
    | .ok bc => fitsUpTo 9 bc
    | .error _ => false) = true := by decide +kernel

example : Parser.parseSource "let mut s = 0 let r = 1..4 for i in r { s += i } s" = .ok (sumProgram 1 4) := by kernel_rfl

/-- The bounds 1 and 4 meet the conditions. -/
example : InI64 1 ∧ InI64 (1 + 1) ∧ InI64 (4 + 1) ∧ (∀ zs, zs <+: intsBelow 1 4 → InI64 zs.sum) ∧ (intsBelow 1 4).sum = 6 := by
  refine ⟨by decide, by decide, by decide, fun zs h => ?_, by decide⟩
  rw [show zs = (intsBelow 1 4).take zs.length from List.prefix_iff_eq_take.1 h]
  have hl : zs.length ≤ 3 := h.length_le
  generalize zs.length = k at hl
  match k, hl with
  | 0, _ => decide
  | 1, _ => decide
  | 2, _ => decide
  | 3, _ => decide

/-- `let r = 9223372036854775806..9223372036854775807  for i in r { i }` -/
def lastRange : Expr :=
  .block (storedLoop "r" "i" (.int 9223372036854775806) (.int 9223372036854775807) (.block [] (some (.ident "i")))) none

/-- The same loop over the range itself. -/
def lastRangeDirect : Expr :=
  .block [.forLoop "i" (.binary .rangeExclusive (.int 9223372036854775806) (.int 9223372036854775807)) (.block [] (some (.ident "i")))] none

theorem lastRange_eval : (Src.program (tool lib loader fmod true debug) runtimeKnown (toolSources src) 60 lastRange
    (Src.boot constant lib loader fmod true debug src).2).1 = .abort := by
  cases debug <;> kernel_rfl

theorem lastRangeDirect_eval : (Src.program (tool lib loader fmod true debug) runtimeKnown (toolSources src) 60 lastRangeDirect
    (Src.boot constant lib loader fmod true debug src).2).1 = .ok .unit := by
  cases debug <;> kernel_rfl

/-- **C61** fails for ranges up to the greatest integer: with overflow checks the loop over the stored range panics at its end,
because the iterator counts one further.  The loop over the range itself does not. -/
theorem stored_range_overflows (hs : SourceRel (Natives.world lib loader fmod true debug) src) :
    (∀ bc, compile .script lastRange = .ok bc → Fits bc → ∃ k s m',
      run (tool lib loader fmod true debug) k bc (boot constant lib loader fmod true debug).2 = (.panic s, m')) ∧
    (∀ bc, compile .script lastRangeDirect = .ok bc → Fits bc →
      Overflows (fun k => run (tool lib loader fmod true debug) k bc) (boot constant lib loader fmod true debug).2 ∨
      ∃ k m', run (tool lib loader fmod true debug) k bc (boot constant lib loader fmod true debug).2 = (.ok .unit, m')) := by
  refine ⟨fun bc h hf => ?_, fun bc h hf => ?_⟩
  · obtain ⟨κ, ht⟩ := tool_program_agrees_partial constant lib loader fmod true debug src hs h hf
    have he := lastRange_eval constant lib loader fmod debug src
    rcases ht 60 with ⟨k, s, m', hr, -⟩ | hA
    · exact ⟨k, s, m', hr⟩
    · unfold lastRange at he
      revert hA he
      cases Src.program (tool lib loader fmod true debug) runtimeKnown (toolSources src) 60 (.block (storedLoop "r" "i" (.int 9223372036854775806) (.int 9223372036854775807) (.block [] (some (.ident "i")))) none)
        (Src.boot constant lib loader fmod true debug src).2 with
      | mk o σ =>
        rintro he hA
        cases he
        exact hA
  · obtain ⟨κ, ht⟩ := tool_program_agrees_partial constant lib loader fmod true debug src hs h hf
    have he := lastRangeDirect_eval constant lib loader fmod debug src
    refine (ht 60).imp_right ?_
    unfold lastRangeDirect at he
    revert he
    cases Src.program (tool lib loader fmod true debug) runtimeKnown (toolSources src) 60 (.block [.forLoop "i" (.binary .rangeExclusive (.int 9223372036854775806) (.int 9223372036854775807)) (.block [] (some (.ident "i")))] none)
      (Src.boot constant lib loader fmod true debug src).2 with
    | mk o σ =>
      rintro he hA
      cases he
      obtain ⟨k, u, m', hr, -, -, μ', κ', -, hv, -⟩ := hA
      cases hv
      exact ⟨k, m', hr⟩

example : ([lastRange, lastRangeDirect].all fun e => match compile .script e with
    | .ok bc => fitsUpTo 9 bc
    | .error _ => false) = true := by decide +kernel

end

end Dice
