import Verif.ObjectLit
import Verif.NativeArray
import Verif.Ctor

/-!
# Exports and failed imports

`export` gives the module object a field with the value of the declaration.  A module that cannot be loaded can be imported the
second time.
-/

namespace Dice

namespace Src

variable {w : World} {call : Calls} {r : Role} {n : Nat}

theorem exported_names {e : Expr} {x : String} (h : exported e = some x) :
    (∃ c i t, e = .varDecl (.singular x) c i t) ∨ (∃ args ret body, e = .fnDecl x args ret body) ∨
      (∃ base members, e = .classDecl x base members) ∨ e = .ident x := by
  unfold exported at h
  split at h
  · cases h; exact .inl ⟨_, _, _, rfl⟩
  · cases h; exact .inr (.inl ⟨_, _, _, rfl⟩)
  · cases h; exact .inr (.inr (.inl ⟨_, _, rfl⟩))
  · cases h; exact .inr (.inr (.inr rfl))
  · cases h

/-- **C77.**  `export d` gives the object of the module a field with the name and the value of the declaration, and leaves its
other fields as they are. -/
theorem export_sets_field {e : Expr} {inside : Bool} {ρ ρ' : SEnv} {σ σ' : State} {v : Value} {l i : Nat} {ob : Obj}
    (hl : ρ.lookup "#export" = some l) (ho : σ.store[l]? = some (some (.object i)))
    (h : eval w call r n inside (.exportDecl e) ρ σ = (.ok (v, ρ'), σ')) :
    ∃ x σ1, ((∃ c i t, e = .varDecl (.singular x) c i t) ∨ (∃ args ret body, e = .fnDecl x args ret body) ∨
        (∃ base members, e = .classDecl x base members) ∨ e = .ident x) ∧ eval w call r n false e ρ σ = (.ok (v, ρ'), σ1) ∧ σ'.store = σ1.store ∧
      (σ1.heap.objects[i]? = some ob → ob.fields < σ1.heap.maps.length →
        σ'.heap.ownField x (.object i) = some v ∧ ∀ y, y ≠ x → σ'.heap.ownField y (.object i) = σ1.heap.ownField y (.object i)) := by
  rw [eval, show exports = "#export" from rfl, hl] at h
  cases hx : exported e with
  | none => rw [hx] at h; cases h
  | some x =>
    rw [hx] at h
    dsimp only at h
    rw [run_bind] at h
    have hr : readLoc l σ = (.ok (.object i), σ) := by
      unfold readLoc
      rw [ho]
    rw [hr] at h
    dsimp only at h
    rw [run_bind] at h
    unfold S.operand at h
    rcases he : eval w call r n false e ρ σ with ⟨o, σ1⟩
    rw [he] at h
    cases o with
    | ok p =>
      obtain ⟨v1, ρ1⟩ := p
      dsimp only at h
      rw [run_bind] at h
      unfold setFieldOf at h
      rw [show σ1.heap.asObject (.object i) = σ1.heap.objects[i]? from rfl] at h
      cases hob : σ1.heap.objects[i]? with
      | none => rw [hob] at h; cases h
      | some ob' =>
        rw [hob] at h
        cases h
        refine ⟨x, σ1, exported_names hx, rfl, rfl, fun ho' hm => ?_⟩
        have : ob' = ob := Option.some.inj (hob.symm.trans ho')
        subst this
        refine ⟨?_, fun y hy => ?_⟩
        · rw [Natives.ownField_setField _ _ _ hob hm, if_pos rfl]
        · rw [Natives.ownField_setField _ _ _ hob hm, if_neg hy]
    | _ => cases h

/-- A module with one exported variable. -/
def sevens : Sources := fun _ => some (.exportDecl (.varDecl (.singular "x") false (.int 7) none))

/-- A world with these modules. -/
def withModules : World := { Findings.world true with loader := fun _ => .ok ⟨[], 0, 0, []⟩ }

/-- Beside it: the import of the exported name gives its value. -/
example (known : Known) : ((do
      let (_, ρ) ← eval withModules (calls withModules known sevens 1) (.plain none) 1 false (.importDecl none ["x"] "m") []
      readVar ρ "x" : S Value) {}).1 = .ok (.int 7) := by rfl

end Src

/-- **C78.**  The first import of a module that cannot be loaded fails with the error of the loader.  Missing: further imports
(`failed_import_succeeds`). -/
theorem first_import_fails_partial {w : World} {k : Calls} {name : String} {m : VM} {e : RtErr} (hm : m.modules.get name = none)
    (hl : w.loader name = .error e) : (loadModule w k name m).1 = .err e := by
  unfold loadModule
  have : moduleValue w k name m = (.err e, { m with heap := (m.heap.newObject w.moduleClass).2, modules := m.modules.insert name (m.heap.newObject w.moduleClass).1 }) := by
    unfold moduleValue
    rw [hm]
    dsimp only
    rw [hl]
  rw [V.run_err this]

/-- **C78, refuted.**  After that, the import gives an object without fields
(dice-runtime/src/interpreter/mod.rs:838-842 registers it before loading the module). -/
theorem failed_import_succeeds {w : World} {k : Calls} {name : String} {m : VM} {e : RtErr} (hm : m.modules.get name = none)
    (hl : w.loader name = .error e) (hs : m.ptr < maxStack) :
    ∃ m', loadModule w k name (loadModule w k name m).2 = (.ok (), m') ∧ m'.mem m.ptr = .object m.heap.objects.length ∧
      ∀ key, m'.heap.ownField key (.object m.heap.objects.length) = none := by
  have h1 : moduleValue w k name m = (.err e, { m with heap := (m.heap.newObject w.moduleClass).2, modules := m.modules.insert name (m.heap.newObject w.moduleClass).1 }) := by
    unfold moduleValue
    rw [hm]
    dsimp only
    rw [hl]
  have h2 : (loadModule w k name m).2 = { m with heap := (m.heap.newObject w.moduleClass).2, modules := m.modules.insert name (m.heap.newObject w.moduleClass).1 } := by
    unfold loadModule
    rw [V.run_err h1]
  rw [h2]
  have h3 : moduleValue w k name { m with heap := (m.heap.newObject w.moduleClass).2, modules := m.modules.insert name (m.heap.newObject w.moduleClass).1 } =
      (.ok (.object m.heap.objects.length), { m with heap := (m.heap.newObject w.moduleClass).2, modules := m.modules.insert name (m.heap.newObject w.moduleClass).1 }) := by
    unfold moduleValue
    dsimp only
    rw [ValueMap.get_insert, if_pos rfl]
    rfl
  unfold loadModule
  rw [V.run_ok h3]
  unfold push
  rw [if_pos (by exact hs)]
  refine ⟨_, rfl, by simp [upd], fun key => ?_⟩
  show (m.heap.addObject w.moduleClass []).ownField key (.object m.heap.objects.length) = none
  rw [ownField_new]
  rfl

/-- **C78, refuted for ever.**  Whatever runs after the failed import, and even if the module can be loaded by then (`w'`),
importing it does not load it. -/
theorem failed_import_stays {w w' : World} {k k' : Calls} {name : String} {m : VM} {e : RtErr} (hm : m.modules.get name = none)
    (hl : w.loader name = .error e) (history : List (Nat × Bytecode)) :
    moduleValue w' k' name (runAll w' history (moduleValue w k name m).2) =
      (.ok (.object m.heap.objects.length), runAll w' history (moduleValue w k name m).2) := by
  refine module_again w' k' (module_kept w' history ?_)
  unfold moduleValue
  rw [hm]
  dsimp only
  rw [hl]
  show (m.modules.insert name _).get name = _
  rw [ValueMap.get_insert, if_pos rfl]
  rfl

/-- Beside it: a loader that knows no modules. -/
example {k : Calls} : (loadModule (Findings.world true) k "m" {}).1 = .err (.load "m") := first_import_fails_partial rfl rfl
example {k : Calls} : (loadModule (Findings.world true) k "m" (loadModule (Findings.world true) k "m" {}).2).1 = .ok () := by
  obtain ⟨m', h, _⟩ := failed_import_succeeds (w := Findings.world true) (k := k) (name := "m") (m := {}) rfl rfl (by decide)
  rw [h]

/-- The module can be loaded the second time, but it is not run. -/
example {k : Calls} : moduleValue Src.withModules k "m" (moduleValue (Findings.world true) k "m" {}).2 =
    (.ok (.object 0), (moduleValue (Findings.world true) k "m" {}).2) :=
  failed_import_stays (w' := Src.withModules) rfl rfl []

end Dice
