import Verif.Keeps
import Verif.Findings

/-!
# Taking a value apart

In the reference evaluator, `let { a, b } = e` declares a variable for each field: each of them has the value that an access
to the field of that name gives, and the declaration does the same as one declaration for each field.
-/

namespace Dice

namespace Src

variable {w : World} {call : Calls} {r : Role} {n : Nat}

/-- `let x = y.x` for each of the names. -/
def fieldDecls (y : String) (xs : List String) : List Expr :=
  xs.map fun x => .varDecl (.singular x) false (.field (.ident y) x) none

/-- An access to a field gives a value or an error, and changes nothing. -/
theorem fieldOf_run (key : String) (v : Value) (σ : State) :
    (∃ u, fieldOf w key v σ = (.ok u, σ)) ∨ ∃ e, fieldOf w key v σ = (.err e, σ) := by
  unfold fieldOf
  split
  · exact .inl ⟨_, rfl⟩
  · split
    · exact .inr ⟨_, rfl⟩
    · split
      · exact .inl ⟨_, rfl⟩
      · exact .inl ⟨_, rfl⟩

/-- It depends on the heap only. -/
theorem fieldOf_heap {key : String} {v u : Value} {σ σ' : State} (hh : σ'.heap = σ.heap) (h : fieldOf w key v σ = (.ok u, σ)) :
    fieldOf w key v σ' = (.ok u, σ') := by
  unfold fieldOf at h ⊢
  rw [hh]
  split at h
  · cases h
    rfl
  · split at h
    · cases h
    · rename_i hk
      rw [if_neg hk]
      split at h
      · cases h
        rfl
      · cases h
        rfl

theorem readVar_alloc {x y : String} {ρ : SEnv} {v u : Value} {σ : State} (hy : y ≠ x) (h : readVar ρ y σ = (.ok v, σ)) :
    readVar ((x, σ.store.length) :: ρ) y { σ with store := σ.store ++ [some u] } =
      (.ok v, { σ with store := σ.store ++ [some u] }) := by
  unfold readVar at h ⊢
  have hb : (y == x) = false := by simpa using hy
  rw [List.lookup_cons, hb]
  dsimp only
  cases hl : ρ.lookup y with
  | none =>
    rw [hl] at h
    dsimp only [globalVar] at h ⊢
    split at h
    · rename_i hg
      cases h
      rfl
    · cases h
  | some l =>
    rw [hl] at h
    dsimp only [readLoc] at h ⊢
    split at h
    · rename_i hg
      cases h
      have : l < σ.store.length := (List.getElem?_eq_some_iff.1 hg).1
      rw [List.getElem?_append_left this, hg]
    · cases h

/-- The names keep what they stand for: those of the declaration the fields, all others their variables. -/
theorem bindFields_run {v : Value} : (xs : List String) → {ρ ρ' : SEnv} → {σ σ' : State} →
    bindFields w v xs ρ σ = (.ok ρ', σ') →
    σ'.heap = σ.heap ∧ σ'.fns = σ.fns ∧ σ'.globals = σ.globals ∧ (∃ new, σ'.store = σ.store ++ new) ∧
    (∀ x ∈ xs, ∃ u, fieldOf w x v σ = (.ok u, σ) ∧ readVar ρ' x σ' = (.ok u, σ')) ∧
    ∀ y, y ∉ xs → ρ'.lookup y = ρ.lookup y
  | [], ρ, ρ', σ, σ', h => by
    cases h
    exact ⟨rfl, rfl, rfl, ⟨[], by simp⟩, fun _ h => (List.not_mem_nil h).elim, fun _ _ => rfl⟩
  | x :: xs, ρ, ρ', σ, σ', h => by
    rw [bindFields, run_bind] at h
    rcases fieldOf_run (w := w) x v σ with ⟨u, hu⟩ | ⟨e, hu⟩
    · rw [hu] at h
      dsimp only at h
      rw [run_bind] at h
      dsimp only [alloc] at h
      obtain ⟨hh, hf, hg, ⟨new, hs⟩, hx, hy⟩ := bindFields_run xs h
      refine ⟨hh, hf, hg, ⟨some u :: new, by rw [hs]; simp⟩, fun z hz => ?_, fun z hz => ?_⟩
      · by_cases hzs : z ∈ xs
        · obtain ⟨u', h1, h2⟩ := hx z hzs
          exact ⟨u', fieldOf_heap (σ := { σ with store := σ.store ++ [some u] }) rfl h1, h2⟩
        · have hzx : z = x := by
            rcases List.mem_cons.1 hz with h | h
            · exact h
            · exact (hzs h).elim
          subst hzx
          refine ⟨u, hu, ?_⟩
          unfold readVar
          rw [hy z hzs, List.lookup_cons, beq_self_eq_true]
          dsimp only [readLoc]
          rw [hs]
          simp
      · simp only [List.mem_cons, not_or] at hz
        rw [hy z hz.2, List.lookup_cons]
        have : (z == x) = false := by simpa using hz.1
        rw [this]
    · rw [hu] at h
      cases h

/-- **C74.**  After `let { xs } = e` each of the names has the value of the field of that name, all others stand for what
they did, and nothing that existed before has changed. -/
theorem destructuring_reads_fields {xs : List String} {mu : Bool} {e : Expr} {t : Option TypeAnn} {inside : Bool} {ρ ρ' : SEnv} {σ σ' : State}
    {v : Value} (h : eval w call r n inside (.varDecl (.destructured xs) mu e t) ρ σ = (.ok (v, ρ'), σ')) :
    ∃ ρ1 σ1, eval w call r n false e ρ σ = (.ok (v, ρ1), σ1) ∧ σ'.heap = σ1.heap ∧ σ'.fns = σ1.fns ∧ σ'.globals = σ1.globals ∧
      (∃ new, σ'.store = σ1.store ++ new) ∧
      (∀ x ∈ xs, ∃ u, fieldOf w x v σ1 = (.ok u, σ1) ∧ eval w call r n inside (.ident x) ρ' σ' = (.ok (u, ρ'), σ')) ∧
      ∀ y, y ∉ xs → ρ'.lookup y = ρ1.lookup y := by
  rw [eval, run_bind] at h
  rcases he : eval w call r n false e ρ σ with ⟨o, σ1⟩
  rw [he] at h
  cases o with
  | ok p =>
    obtain ⟨v1, ρ1⟩ := p
    dsimp only at h
    rw [run_bind] at h
    rcases hb : bindFields w v1 xs ρ1 σ1 with ⟨o2, σ2⟩
    rw [hb] at h
    cases o2 with
    | ok ρ2 =>
      cases h
      obtain ⟨hh, hf, hg, hs, hx, hy⟩ := bindFields_run xs hb
      refine ⟨ρ1, σ1, rfl, hh, hf, hg, hs, fun x hm => ?_, hy⟩
      obtain ⟨u, h1, h2⟩ := hx x hm
      refine ⟨u, h1, ?_⟩
      rw [eval, run_bind, h2]
      rfl
    | _ => cases h
  | _ => cases h

theorem field_run {y x : String} {ρ : SEnv} {σ : State} {v : Value} (h : readVar ρ y σ = (.ok v, σ)) :
    eval w call r n false (.field (.ident y) x) ρ σ = (do
      let u ← fieldOf w x v
      pure (u, ρ) : S (Value × SEnv)) σ := by
  rw [eval]
  show S.noExit (eval w call r n true (.ident y) ρ >>= _) σ = _
  unfold S.noExit
  rw [run_bind]
  have he : eval w call r n true (.ident y) ρ σ = (.ok (v, ρ), σ) := by
    rw [eval, run_bind, h]
    rfl
  rw [he]
  dsimp only
  rw [run_bind]
  rcases fieldOf_run (w := w) x v σ with ⟨u, hu⟩ | ⟨e, hu⟩ <;> rw [hu] <;> rfl

theorem fieldDecls_run {y : String} {v : Value} : (xs : List String) → y ∉ xs → {ρ : SEnv} → {σ : State} →
    readVar ρ y σ = (.ok v, σ) → evalStmts w call r n (fieldDecls y xs) ρ σ = bindFields w v xs ρ σ
  | [], _, _, _, _ => rfl
  | x :: xs, hy, ρ, σ, h => by
    simp only [List.mem_cons, not_or] at hy
    show evalStmts w call r n (.varDecl (.singular x) false (.field (.ident y) x) none :: fieldDecls y xs) ρ σ = _
    rw [evalStmts, bindFields, run_bind, run_bind, eval, run_bind, field_run h, run_bind]
    rcases fieldOf_run (w := w) x v σ with ⟨u, hu⟩ | ⟨e, hu⟩
    · rw [hu]
      exact fieldDecls_run xs hy.2 (readVar_alloc hy.1 h)
    · rw [hu]

/-- **C74.**  `let { xs } = y` does what `let x = y.x` for each of the names does, one after the other. -/
theorem destructuring_is_declarations {y : String} {xs : List String} (hy : y ∉ xs) {mu : Bool} {t : Option TypeAnn} {ρ : SEnv} {σ : State}
    {v : Value} (h : readVar ρ y σ = (.ok v, σ)) :
    eval w call r n false (.varDecl (.destructured xs) mu (.ident y) t) ρ σ = (do
      let ρ' ← evalStmts w call r n (fieldDecls y xs) ρ
      pure (v, ρ') : S (Value × SEnv)) σ := by
  rw [eval, run_bind, run_bind, fieldDecls_run xs hy h]
  have he : eval w call r n false (.ident y) ρ σ = (.ok (v, ρ), σ) := by
    rw [eval, run_bind, h]
    rfl
  rw [he]
  dsimp only
  rw [run_bind]

/-- An object with the field `a`, in the variable `o`. -/
def holding : State := { store := [some (.object 0)], heap := { maps := [[("a", .int 7)]], objects := [⟨some 0, 0⟩] } }

example : readVar [("o", 0)] "o" holding = (.ok (.object 0), holding) := rfl
example : (evalStmts w call r n (fieldDecls "o" ["a", "b"]) [("o", 0)] holding).1 = .ok [("b", 2), ("a", 1), ("o", 0)] := by rfl
example : (eval w call r n false (.varDecl (.destructured ["a", "b"]) false (.ident "o") none) [("o", 0)] holding).2.store =
    [some (.object 0), some (.int 7), some .null] := by rfl

/-- **C74.**  `import { xs } from "p"`: each of the names has the value of the field of the module. -/
theorem import_reads_fields {xs : List String} {path : String} {inside : Bool} {ρ ρ' : SEnv} {σ σ' : State} {v : Value}
    (h : eval w call r n inside (.importDecl none xs path) ρ σ = (.ok (v, ρ'), σ')) :
    ∃ σ1, call.load path σ = (.ok v, σ1) ∧ σ'.heap = σ1.heap ∧
      (∀ x ∈ xs, ∃ u, fieldOf w x v σ1 = (.ok u, σ1) ∧ eval w call r n inside (.ident x) ρ' σ' = (.ok (u, ρ'), σ')) ∧
      ∀ y, y ∉ xs → ρ'.lookup y = ρ.lookup y := by
  rw [eval, run_bind] at h
  rcases he : call.load path σ with ⟨o, σ1⟩
  rw [he] at h
  cases o with
  | ok v1 =>
    dsimp only at h
    rw [run_bind] at h
    rcases hb : bindFields w v1 xs ρ σ1 with ⟨o2, σ2⟩
    rw [hb] at h
    cases o2 with
    | ok ρ2 =>
      cases h
      obtain ⟨hh, _, _, _, hx, hy⟩ := bindFields_run xs hb
      refine ⟨σ1, rfl, hh, fun x hm => ?_, hy⟩
      obtain ⟨u, h1, h2⟩ := hx x hm
      refine ⟨u, h1, ?_⟩
      rw [eval, run_bind, h2]
      rfl
    | _ => cases h
  | _ => cases h

end Src

open Findings in
/-- The compiled program, with the field that the object has and the one that it has not. -/
example : Gives true "let { a, b } = # { a: 1 } a" (.int 1) 0 ∧ Gives true "let { a, b } = # { a: 1 } b" .null 0 :=
  ⟨gives (e := .block [.varDecl (.destructured ["a", "b"]) false (.object [("a", .int 1)]) none] (some (var "a")))
      (by kernel_rfl) (by decide +kernel),
    gives (e := .block [.varDecl (.destructured ["a", "b"]) false (.object [("a", .int 1)]) none] (some (var "b")))
      (by kernel_rfl) (by decide +kernel)⟩

end Dice
