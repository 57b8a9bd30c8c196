import Verif.StoredRange
import Verif.Apart

/-!
# Object literals

In the reference evaluator, an object literal is a new object with exactly the given fields.
-/

namespace Dice

namespace Src

variable {w : World} {call : Calls} {r : Role} {n : Nat}

/-- Literals and variables have the same value whatever the heap is. -/
theorem repeatable_run {e : Expr} (he : repeatable e = true) {ρ : SEnv} {σ σ' : State} {p : Value × SEnv}
    (h : eval w call r n false e ρ σ = (.ok p, σ')) :
    p.2 = ρ ∧ σ' = σ ∧ ∀ g, eval w call r n false e ρ { σ with heap := g } = (.ok p, { σ with heap := g }) := by
  cases e with
  | ident x =>
    rw [eval, run_bind] at h
    unfold readVar at h
    cases hl : ρ.lookup x with
    | none =>
      rw [hl] at h
      dsimp only [globalVar] at h
      cases hg : σ.globals.get x with
      | none => rw [hg] at h; cases h
      | some v =>
        rw [hg] at h
        cases h
        refine ⟨rfl, rfl, fun g => ?_⟩
        rw [eval, run_bind]
        unfold readVar
        rw [hl]
        dsimp only [globalVar]
        rw [hg]
        rfl
    | some l =>
      rw [hl] at h
      dsimp only [readLoc] at h
      rcases hg : σ.store[l]? with _ | _ | v
      · rw [hg] at h; cases h
      · rw [hg] at h; cases h
      · rw [hg] at h
        cases h
        refine ⟨rfl, rfl, fun g => ?_⟩
        rw [eval, run_bind]
        unfold readVar
        rw [hl]
        dsimp only [readLoc]
        rw [hg]
        rfl
  | float f =>
    rw [eval] at h
    split at h
    · cases h
    · rename_i hf
      cases h
      refine ⟨rfl, rfl, fun g => ?_⟩
      rw [eval, if_neg hf]
      rfl
  | unit | null | bool | int | str =>
    cases h
    exact ⟨rfl, rfl, fun g => rfl⟩
  | _ => cases he

/-- The fields with the given keys and values: later ones hide earlier ones. -/
def entries (ks : List String) (vs : List Value) : ValueMap := (ks.zip vs).reverse

theorem fields_run {c : Nat} {g : Heap} : (fs : List (String × Expr)) → (∀ f ∈ fs, repeatable f.2 = true) → {ρ ρ' : SEnv} →
    {σ σ' : State} → {m : ValueMap} → σ.heap = g.addObject c m →
    evalFields w call r n (.object g.objects.length) fs ρ σ = (.ok ρ', σ') →
    ρ' = ρ ∧ σ'.store = σ.store ∧ ∃ vs, vs.length = fs.length ∧
      (∀ f v, (f, v) ∈ fs.zip vs → eval w call r n false f.2 ρ σ = (.ok (v, ρ), σ)) ∧
      σ'.heap = g.addObject c (entries (fs.map (·.1)) vs ++ m)
  | [], _, ρ, ρ', σ, σ', m, hσ, h => by
    cases h
    exact ⟨rfl, rfl, [], rfl, fun _ _ h => (List.not_mem_nil h).elim, hσ⟩
  | f :: fs, hr, ρ, ρ', σ, σ', m, hσ, h => by
    rw [evalFields, run_bind] at h
    rcases he : eval w call r n false f.2 ρ σ with ⟨o, σ1⟩
    unfold S.operand at h
    rw [he] at h
    cases o with
    | ok p =>
      obtain ⟨hp, rfl, hv⟩ := repeatable_run (hr f (List.mem_cons_self ..)) he
      obtain ⟨v, ρ1⟩ := p
      cases hp
      dsimp only at h
      rw [run_bind] at h
      have hs : setFieldOf f.1 (.object g.objects.length) v σ1 =
          (.ok (), { σ1 with heap := g.addObject c (m.insert f.1 v) }) := by
        unfold setFieldOf
        rw [hσ, asObject_new]
        dsimp only
        rw [setField_new]
      rw [hs] at h
      dsimp only at h
      obtain ⟨h1, h2, vs, hl, hvs, hh⟩ := fields_run fs (fun f hf => hr f (List.mem_cons_of_mem _ hf)) rfl h
      refine ⟨h1, h2, v :: vs, by simp [hl], ?_, ?_⟩
      · intro f' v' hm
        rw [List.zip_cons_cons] at hm
        rcases List.mem_cons.1 hm with hm | hm
        · cases hm
          exact he
        · have := hvs f' v' hm
          have := (repeatable_run (hr f' (List.mem_cons_of_mem _ (List.of_mem_zip hm).1)) this).2.2 σ1.heap
          exact this
      · rw [hh]
        simp [entries, ValueMap.insert]
    | _ => cases h

/-- **C75.**  An object literal whose values are literals and variables is a new object of the class `Any`; each field has
the value of the last entry with that key, there are no other fields, and the fields of other objects are as before.
Missing: values that are computed. -/
theorem object_literal_partial {fs : List (String × Expr)} (hr : ∀ f ∈ fs, repeatable f.2 = true) {inside : Bool} {ρ ρ' : SEnv}
    {σ σ' : State} {o : Value} (h : eval w call r n inside (.object fs) ρ σ = (.ok (o, ρ'), σ')) :
    ρ' = ρ ∧ σ'.store = σ.store ∧ o = .object σ.heap.objects.length ∧ ∃ vs, vs.length = fs.length ∧
      (∀ f v, (f, v) ∈ fs.zip vs → eval w call r n false f.2 ρ σ = (.ok (v, ρ), σ)) ∧
      (∀ key, σ'.heap.ownField key o = ((fs.map (·.1)).zip vs).reverse.lookup key) ∧
      ∀ key j v, σ.heap.ownField key (.object j) = some v → σ'.heap.ownField key (.object j) = some v := by
  rw [eval, run_bind] at h
  have hn : onHeap (fun h => h.newObject w.anyClass) σ =
      (.ok (.object σ.heap.objects.length), { σ with heap := σ.heap.addObject w.anyClass [] }) := rfl
  rw [hn] at h
  dsimp only at h
  rw [run_bind] at h
  rcases hf : evalFields w call r n (.object σ.heap.objects.length) fs ρ { σ with heap := σ.heap.addObject w.anyClass [] } with ⟨x, σ1⟩
  rw [hf] at h
  cases x with
  | ok ρ1 =>
    cases h
    obtain ⟨rfl, h2, vs, hl, hvs, hh⟩ := fields_run fs hr (g := σ.heap) (c := w.anyClass) (m := []) rfl hf
    refine ⟨rfl, h2, rfl, vs, hl, fun f v hm => ?_, fun key => ?_, fun key j v hv => ?_⟩
    · exact (repeatable_run (hr f (List.of_mem_zip hm).1) (hvs f v hm)).2.2 σ.heap
    · rw [hh, ownField_new, List.append_nil]
      rfl
    · rw [hh]
      exact ownField_old hv ..
  | _ => cases h

/-! ## Nested literals -/

mutual

/-- Literals, variables and functions, and objects and arrays of them. -/
def inert : Expr → Bool
  | .ident _ | .unit | .null | .bool _ | .int _ | .float _ | .str _ | .anonFn .. => true
  | .object fs => inertFields fs
  | .list es => inertAll es
  | _ => false

def inertFields : List (String × Expr) → Bool
  | [] => true
  | f :: fs => inert f.2 && inertFields fs

def inertAll : List Expr → Bool
  | [] => true
  | e :: es => inert e && inertAll es

end

/-- Objects and their fields are as before, but for those of the map `a`. -/
structure Grown (a : Option Nat) (σ σ' : State) : Prop where
  store : σ'.store = σ.store
  globals : σ'.globals = σ.globals
  objects : ∀ (j : Nat) (o : Obj), σ.heap.objects[j]? = some o → σ'.heap.objects[j]? = some o
  maps : ∀ (j : Nat) (m : ValueMap), some j ≠ a → σ.heap.maps[j]? = some m → σ'.heap.maps[j]? = some m

theorem Grown.refl (a : Option Nat) (σ : State) : Grown a σ σ := ⟨rfl, rfl, fun _ _ h => h, fun _ _ _ h => h⟩

theorem Grown.trans {a : Option Nat} {σ σ' σ'' : State} (h : Grown a σ σ') (h' : Grown a σ' σ'') : Grown a σ σ'' :=
  ⟨h'.store.trans h.store, h'.globals.trans h.globals, fun j o hj => h'.objects j o (h.objects j o hj),
    fun j m ha hj => h'.maps j m ha (h.maps j m ha hj)⟩

theorem Grown.weaken {σ σ' : State} (h : Grown none σ σ') (a : Option Nat) : Grown a σ σ' :=
  ⟨h.store, h.globals, h.objects, fun j m _ hj => h.maps j m (by simp) hj⟩

set_option maxHeartbeats 4000000 in
mutual

theorem inert_eval : (e : Expr) → inert e = true → {inside : Bool} → {ρ ρ' : SEnv} → {σ σ' : State} → {v : Value} →
    eval w call r n inside e ρ σ = (.ok (v, ρ'), σ') → ρ' = ρ ∧ Grown none σ σ'
  | .ident x, _, inside, ρ, ρ', σ, σ', v, h => by
    have h : eval w call r n false (.ident x) ρ σ = (.ok (v, ρ'), σ') := h
    obtain ⟨h1, rfl, _⟩ := repeatable_run (by rfl) h
    exact ⟨h1, .refl _ _⟩
  | .float f, _, inside, ρ, ρ', σ, σ', v, h => by
    have h : eval w call r n false (.float f) ρ σ = (.ok (v, ρ'), σ') := h
    obtain ⟨h1, rfl, _⟩ := repeatable_run (by rfl) h
    exact ⟨h1, .refl _ _⟩
  | .unit, _, _, _, _, _, _, _, h | .null, _, _, _, _, _, _, _, h | .bool _, _, _, _, _, _, _, _, h
  | .int _, _, _, _, _, _, _, _, h | .str _, _, _, _, _, _, _, _, h => by
    cases h
    exact ⟨rfl, .refl _ _⟩
  | .anonFn _ _ _, _, _, _, _, _, _, _, h => by
    cases h
    exact ⟨rfl, rfl, rfl, fun _ _ h => h, fun _ _ _ h => h⟩
  | .object fs, he, inside, ρ, ρ', σ, σ', v, h => by
    rw [inert] at he
    rw [eval, run_bind] at h
    have hn : onHeap (fun h => h.newObject w.anyClass) σ =
        (.ok (.object σ.heap.objects.length), { σ with heap := σ.heap.addObject w.anyClass [] }) := rfl
    rw [hn] at h
    dsimp only at h
    rw [run_bind] at h
    rcases hf : evalFields w call r n (.object σ.heap.objects.length) fs ρ { σ with heap := σ.heap.addObject w.anyClass [] } with ⟨x, σ1⟩
    rw [hf] at h
    cases x with
    | ok ρ1 =>
      cases h
      obtain ⟨rfl, _, _, _, hg, _⟩ := inert_fields fs he (i := σ.heap.objects.length) (ob := ⟨some w.anyClass, σ.heap.maps.length⟩)
        (m := []) (by simp [Heap.addObject]) (by simp [Heap.addObject]) hf
      refine ⟨rfl, hg.store, hg.globals, fun j o hj => hg.objects j o ?_, fun j m _ hj => hg.maps j m ?_ ?_⟩
      · show (σ.heap.objects ++ _)[j]? = _
        rw [List.getElem?_append_left (List.getElem?_eq_some_iff.1 hj).1, hj]
      · have := (List.getElem?_eq_some_iff.1 hj).1
        simp only [ne_eq, Option.some.injEq]
        omega
      · show (σ.heap.maps ++ _)[j]? = _
        rw [List.getElem?_append_left (List.getElem?_eq_some_iff.1 hj).1, hj]
    | _ => cases h
  | .list es, he, inside, ρ, ρ', σ, σ', v, h => by
    rw [inert] at he
    rw [eval] at h
    unfold S.guard at h
    split at h
    · rw [run_bind] at h
      rcases ha : evalAll w call r n es ρ σ with ⟨x, σ1⟩
      rw [ha] at h
      cases x with
      | ok p =>
        obtain ⟨vs, ρ1⟩ := p
        obtain ⟨rfl, hg⟩ := inert_all es he ha
        cases h
        refine ⟨rfl, hg.trans ⟨rfl, rfl, fun _ _ h => h, fun j m _ hj => ?_⟩⟩
        show (σ1.heap.maps ++ _)[j]? = _
        rw [List.getElem?_append_left (List.getElem?_eq_some_iff.1 hj).1, hj]
      | _ => cases h
    · cases h
  | .assign _ _ _, he, _, _, _, _, _, _, _ | .unary _ _, he, _, _, _, _, _, _, _ | .binary _ _ _, he, _, _, _, _, _, _, _
  | .is _ _, he, _, _, _, _, _, _, _ | .varDecl _ _ _ _, he, _, _, _, _, _, _, _ | .fnDecl _ _ _ _, he, _, _, _, _, _, _, _
  | .opDecl _ _ _ _, he, _, _, _, _, _, _, _ | .classDecl _ _ _, he, _, _, _, _, _, _, _
  | .importDecl _ _ _, he, _, _, _, _, _, _, _ | .exportDecl _, he, _, _, _, _, _, _, _ | .ifExpr _ _ _, he, _, _, _, _, _, _, _
  | .loop _, he, _, _, _, _, _, _, _ | .whileLoop _ _, he, _, _, _, _, _, _, _ | .forLoop _ _ _, he, _, _, _, _, _, _, _
  | .break_, he, _, _, _, _, _, _, _ | .continue_, he, _, _, _, _, _, _, _ | .block _ _, he, _, _, _, _, _, _, _
  | .return_ _, he, _, _, _, _, _, _, _ | .nullProp _, he, _, _, _, _, _, _, _ | .errProp _, he, _, _, _, _, _, _, _
  | .field _ _, he, _, _, _, _, _, _, _ | .superAccess _ _, he, _, _, _, _, _, _, _ | .call _ _, he, _, _, _, _, _, _, _
  | .superCall _, he, _, _, _, _, _, _, _ | .index _ _, he, _, _, _, _, _, _, _ => by
    rw [inert] at he <;> cases he
termination_by e => sizeOf e

theorem inert_fields : (fs : List (String × Expr)) → inertFields fs = true → {i : Nat} → {ob : Obj} → {ρ ρ' : SEnv} → {σ σ' : State} →
    {m : ValueMap} → σ.heap.objects[i]? = some ob → σ.heap.maps[ob.fields]? = some m →
    evalFields w call r n (.object i) fs ρ σ = (.ok ρ', σ') →
    ρ' = ρ ∧ ∃ vs, vs.length = fs.length ∧
      (∀ f v, (f, v) ∈ fs.zip vs → ∃ σa σb, Grown (some ob.fields) σ σa ∧ eval w call r n false f.2 ρ σa = (.ok (v, ρ), σb)) ∧
      Grown (some ob.fields) σ σ' ∧ σ'.heap.maps[ob.fields]? = some (entries (fs.map (·.1)) vs ++ m)
  | [], _, i, ob, ρ, ρ', σ, σ', m, ho, hm, h => by
    cases h
    exact ⟨rfl, [], rfl, fun _ _ h => (List.not_mem_nil h).elim, .refl _ _, hm⟩
  | (fk, fe) :: fs, he, i, ob, ρ, ρ', σ, σ', m, ho, hm, h => by
    simp only [inertFields, Bool.and_eq_true] at he
    rw [evalFields, run_bind] at h
    rcases hx : eval w call r n false fe ρ σ with ⟨o, σ1⟩
    unfold S.operand at h
    rw [hx] at h
    cases o with
    | ok p =>
      obtain ⟨v, ρ1⟩ := p
      obtain ⟨rfl, hg⟩ := inert_eval fe he.1 hx
      dsimp only at h
      rw [run_bind] at h
      have ho1 := hg.objects _ _ ho
      have hm1 := hg.maps _ _ (by simp) hm
      have hs : setFieldOf fk (.object i) v σ1 = (.ok (), { σ1 with heap := σ1.heap.setField ob fk v }) := by
        unfold setFieldOf
        rw [show σ1.heap.asObject (.object i) = σ1.heap.objects[i]? from rfl, ho1]
      rw [hs] at h
      dsimp only at h
      have hg2 : Grown (some ob.fields) σ { σ1 with heap := σ1.heap.setField ob fk v } := by
        refine (hg.weaken _).trans ⟨rfl, rfl, fun _ _ h => h, fun j m' hj h' => ?_⟩
        show (σ1.heap.maps.modify ob.fields _)[j]? = _
        have hne : ob.fields ≠ j := fun e => hj (by rw [e])
        rw [List.getElem?_modify, h']
        simp [hne]
      have hm2 : (σ1.heap.setField ob fk v).maps[ob.fields]? = some (m.insert fk v) := by
        show (σ1.heap.maps.modify ob.fields _)[ob.fields]? = _
        rw [List.getElem?_modify, hm1]
        simp
      obtain ⟨h1, vs, hl, hvs, hg3, hh⟩ := inert_fields fs he.2 (σ := { σ1 with heap := σ1.heap.setField ob fk v }) ho1 hm2 h
      refine ⟨h1, v :: vs, by simp [hl], ?_, hg2.trans hg3, ?_⟩
      · intro f' v' hm
        rw [List.zip_cons_cons] at hm
        rcases List.mem_cons.1 hm with hm | hm
        · cases hm
          exact ⟨σ, σ1, .refl _ _, hx⟩
        · obtain ⟨σa, σb, h4, h5⟩ := hvs f' v' hm
          exact ⟨σa, σb, hg2.trans h4, h5⟩
      · rw [hh]
        simp [entries, ValueMap.insert]
    | _ => cases h
termination_by fs => sizeOf fs

theorem inert_all : (es : List Expr) → inertAll es = true → {ρ ρ' : SEnv} → {σ σ' : State} → {vs : List Value} →
    evalAll w call r n es ρ σ = (.ok (vs, ρ'), σ') → ρ' = ρ ∧ Grown none σ σ'
  | [], _, ρ, ρ', σ, σ', vs, h => by
    cases h
    exact ⟨rfl, .refl _ _⟩
  | e :: es, he, ρ, ρ', σ, σ', vs, h => by
    simp only [inertAll, Bool.and_eq_true] at he
    rw [evalAll, run_bind] at h
    rcases hx : eval w call r n false e ρ σ with ⟨o, σ1⟩
    unfold S.operand at h
    rw [hx] at h
    cases o with
    | ok p =>
      obtain ⟨v, ρ1⟩ := p
      obtain ⟨rfl, hg⟩ := inert_eval e he.1 hx
      dsimp only at h
      rw [run_bind] at h
      rcases hy : evalAll w call r n es ρ1 σ1 with ⟨o2, σ2⟩
      rw [hy] at h
      cases o2 with
      | ok q =>
        obtain ⟨us, ρ2⟩ := q
        cases h
        obtain ⟨h1, h2⟩ := inert_all es he.2 hy
        exact ⟨h1, hg.trans h2⟩
      | _ => cases h
    | _ => cases h
termination_by es => sizeOf es

end

/-- **C75.**  The same for values that are literals, variables and functions, and objects and arrays of such: each entry is
evaluated with the same variables in a state where all that existed before is unchanged, and the object has the entries as its
fields.  Missing: values that are computed by operators and calls. -/
theorem nested_literal_partial {fs : List (String × Expr)} (hr : inertFields fs = true) {inside : Bool} {ρ ρ' : SEnv}
    {σ σ' : State} {o : Value} (h : eval w call r n inside (.object fs) ρ σ = (.ok (o, ρ'), σ')) :
    ρ' = ρ ∧ Grown none σ σ' ∧ o = .object σ.heap.objects.length ∧ ∃ vs, vs.length = fs.length ∧
      (∀ f v, (f, v) ∈ fs.zip vs → ∃ σa σb, Grown none σ σa ∧ eval w call r n false f.2 ρ σa = (.ok (v, ρ), σb)) ∧
      ∀ key, σ'.heap.ownField key o = ((fs.map (·.1)).zip vs).reverse.lookup key := by
  have hgo := inert_eval (.object fs) (by rw [inert]; exact hr) h
  rw [eval, run_bind] at h
  have hn : onHeap (fun h => h.newObject w.anyClass) σ =
      (.ok (.object σ.heap.objects.length), { σ with heap := σ.heap.addObject w.anyClass [] }) := rfl
  rw [hn] at h
  dsimp only at h
  rw [run_bind] at h
  rcases hf : evalFields w call r n (.object σ.heap.objects.length) fs ρ { σ with heap := σ.heap.addObject w.anyClass [] } with ⟨x, σ1⟩
  rw [hf] at h
  cases x with
  | ok ρ1 =>
    cases h
    have ho : ({ σ with heap := σ.heap.addObject w.anyClass [] } : State).heap.objects[σ.heap.objects.length]? =
      some ⟨some w.anyClass, σ.heap.maps.length⟩ := by simp [Heap.addObject]
    obtain ⟨rfl, vs, hl, hvs, hg, hm⟩ := inert_fields fs hr ho (m := []) (by simp [Heap.addObject]) hf
    refine ⟨rfl, hgo.2, rfl, vs, hl, fun f v hz => ?_, fun key => ?_⟩
    · obtain ⟨σa, σb, h1, h2⟩ := hvs f v hz
      refine ⟨σa, σb, ⟨h1.store, h1.globals, fun j o hj => h1.objects j o ?_, fun j m _ hj => h1.maps j m ?_ ?_⟩, h2⟩
      · show (σ.heap.objects ++ _)[j]? = _
        rw [List.getElem?_append_left (List.getElem?_eq_some_iff.1 hj).1, hj]
      · have := (List.getElem?_eq_some_iff.1 hj).1
        simp only [ne_eq, Option.some.injEq]
        omega
      · show (σ.heap.maps ++ _)[j]? = _
        rw [List.getElem?_append_left (List.getElem?_eq_some_iff.1 hj).1, hj]
    · unfold Heap.ownField
      rw [show σ'.heap.asObject (.object σ.heap.objects.length) = σ'.heap.objects[σ.heap.objects.length]? from rfl, hg.objects _ _ ho]
      unfold Heap.field
      dsimp only
      rw [hm, List.append_nil]
      rfl
  | _ => cases h

/-- Beside it: an object in an object, with a function. -/
example : inertFields [("a", .object [("b", .ident "o")]), ("c", .list [.anonFn [] none (.int 1)])] = true := by rfl
example : (eval w call r n false (.object [("a", .object [("b", .ident "o")]), ("c", .list [.anonFn [] none (.int 1)])])
    [("o", 0)] holding).1 = .ok (.object 1, [("o", 0)]) := by rfl

/-- Beside it: a key given twice, in a state with another object. -/
example : (eval w call r n false (.object [("a", .int 1), ("b", .ident "o"), ("a", .int 2)]) [("o", 0)] holding).1 =
    .ok (.object 1, [("o", 0)]) := by rfl
example : ((eval w call r n false (.object [("a", .int 1), ("b", .ident "o"), ("a", .int 2)]) [("o", 0)] holding).2.heap.ownField
    "a" (.object 1)) = some (.int 2) := by rfl

end Src

open Findings in
/-- **C75, refuted.**  A key written as a text keeps its quotation marks (dice-syntax/src/parser/mod.rs:949-951), so that there is
no field with the name that the text denotes. -/
theorem text_key_keeps_quotes :
    Gives true "# { \"a\": 1 }.a" .null 0 ∧ Gives true "# { a: 1 }.a" (.int 1) 0 :=
  ⟨gives (e := seq [] (.field (.object [("\"a\"", .int 1)]) "a")) (by kernel_rfl) (by decide +kernel),
    gives (e := seq [] (.field (.object [("a", .int 1)]) "a")) (by kernel_rfl) (by decide +kernel)⟩

end Dice
