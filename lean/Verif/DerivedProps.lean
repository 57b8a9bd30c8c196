import Verif.Derived
import Verif.Eval
import Verif.Findings

/-!
# Derived forms do what they abbreviate

The programs with and without the abbreviations of `expand` have the same code; compound assignments to fields and elements of
variables are related to their expansions in the reference evaluator.
-/

namespace Dice

/-- **C70.**  A program and the program with all compound assignments to variables written out are compiled to the same code, or
rejected for the same reason. -/
theorem expand_compiled (kind : CompilerKind) (p : Expr) : compile kind (expand p) = compile kind p := by
  have key : Same (compileM kind (expand p)) (compileM kind p) := by
    have h := same_visit p
    have hk : Same (compileEnd kind) (compileEnd kind) := by
      unfold compileEnd
      same_steps
    unfold compileM
    same_steps
  have h0 : CState.Ready { stack := [{ kind }] } := by
    intro c hc v hv
    cases List.mem_singleton.1 hc
    simp [ScopeStack.visible, ScopeStack.new] at hv
  unfold compile
  rw [(key.run _ h0).1]

/-- **C70.**  Programs that differ only in which compound assignments to variables are written out have the same code. -/
theorem same_code {p q : Expr} (h : expand p = expand q) (kind : CompilerKind) : compile kind p = compile kind q := by
  rw [← expand_compiled kind p, h, expand_compiled]

/-- A loop whose body captures and updates a variable, with and without abbreviations. -/
example :
    let f (up : Expr) : Expr := .block [.varDecl (.singular "x") true (.int 1) none, .fnDecl "f" [] none (.block [up] none)]
      (some (.ifExpr (.bool true) (.block [up] none) none))
    let long : Expr := .assign .assign (.ident "x") (.binary .add (.ident "x") (.int 2))
    compile .script (f (.assign .add (.ident "x") (.int 2))) = compile .script (f long) ∧
      f (.assign .add (.ident "x") (.int 2)) ≠ f long ∧ (compile .script (f long)).toOption.isSome = true :=
  ⟨same_code (by simp [expand, expandAll, expandOpt, AssignOp.binary]) _, by simp, by kernel_rfl⟩

/-- A rejected one. -/
example : compile .script (.block [.varDecl (.singular "x") false (.int 1) none] (some (.assign .sub (.ident "x") (.int 2))))
    = .error (.cannotReassign "x") := by kernel_rfl

namespace Src

variable (w : World) (call : Calls) (r : Role) (n : Nat)

theorem S.bind_assoc {α β γ : Type} (x : S α) (f : α → S β) (g : β → S γ) : (x >>= f) >>= g = x >>= fun a => f a >>= g := by
  funext σ
  show S.bind (S.bind x f) g σ = S.bind x (fun a => S.bind (f a) g) σ
  unfold S.bind
  rcases x σ with ⟨o, σ'⟩
  cases o <;> rfl

/-- Not left by a jump. -/
def Smooth {α : Type} (x : S α) : Prop := ∀ σ j, (x σ).1 ≠ .jump j

theorem Smooth.operand {α : Type} {x : S α} (h : Smooth x) : S.operand x = x := by
  funext σ
  have := h σ
  unfold S.operand
  rcases hx : x σ with ⟨o, σ'⟩
  rw [hx] at this
  cases o <;> first | rfl | exact absurd rfl (this _)

theorem Smooth.noExit {α : Type} {x : S α} (h : Smooth x) : S.noExit x = x := by
  funext σ
  have := h σ
  unfold S.noExit
  rcases hx : x σ with ⟨o, σ'⟩
  rw [hx] at this
  cases o <;> first | rfl | exact absurd rfl (this _)

theorem smooth_operand {α : Type} (x : S α) : Smooth (S.operand x) := by
  intro σ j
  unfold S.operand
  rcases x σ with ⟨o, σ'⟩
  cases o <;> exact nofun

theorem smooth_pure {α : Type} (a : α) : Smooth (pure a : S α) := fun _ _ => nofun

theorem Smooth.bind {α β : Type} {x : S α} {f : α → S β} (hx : Smooth x) (hf : ∀ a, Smooth (f a)) : Smooth (x >>= f) := by
  intro σ j
  show (S.bind x f σ).1 ≠ _
  have := hx σ
  unfold S.bind
  rcases hx : x σ with ⟨o, σ'⟩
  rw [hx] at this
  cases o with
  | ok a => exact hf a σ' j
  | jump j => exact absurd rfl (this _)
  | _ => exact nofun

theorem smooth_readVar (ρ : SEnv) (x : String) : Smooth (readVar ρ x) := by
  unfold readVar
  split <;> intro σ j
  · unfold readLoc; split <;> exact nofun
  · unfold globalVar; split <;> exact nofun

theorem smooth_fieldOf (f : String) (v : Value) : Smooth (fieldOf w f v) := by
  intro σ j
  unfold fieldOf
  split
  · exact nofun
  · split
    · exact nofun
    · split <;> exact nofun

theorem smooth_elementOf (v i : Value) : Smooth (elementOf w v i) := by
  cases i with
  | int k =>
    cases v with
    | array a =>
      intro σ j
      dsimp only [elementOf]
      split <;> exact nofun
    | _ => exact fun _ _ => nofun
  | sym key => cases v <;> exact smooth_fieldOf w key _
  | _ => cases v <;> exact fun _ _ => nofun

theorem readVar_state {ρ : SEnv} {x : String} {σ σ' : State} {v : Value} (h : readVar ρ x σ = (.ok v, σ')) : σ' = σ := by
  unfold readVar at h
  cases hl : ρ.lookup x with
  | some l =>
    rw [hl] at h
    dsimp only [readLoc] at h
    split at h <;> cases h
    rfl
  | none =>
    rw [hl] at h
    dsimp only [globalVar] at h
    split at h <;> cases h
    rfl

theorem bind_read {α : Type} {ρ : SEnv} {x : String} {σ : State} {v : Value} (h : readVar ρ x σ = (.ok v, σ)) (f : Value → S α) :
    (readVar ρ x >>= f) σ = f v σ := by
  show S.bind _ _ σ = _
  unfold S.bind
  rw [h]

/-- A variable that is read twice in a row. -/
theorem read_twice {α : Type} (ρ : SEnv) (x : String) (k : Value → Value → S α) :
    (do let v ← readVar ρ x; let u ← readVar ρ x; k v u) = (do let v ← readVar ρ x; k v v) := by
  funext σ
  show S.bind _ _ σ = S.bind _ _ σ
  unfold S.bind
  rcases hr : readVar ρ x σ with ⟨o, σ'⟩
  cases o with
  | ok v =>
    cases readVar_state hr
    exact bind_read hr _
  | _ => rfl

/-- A variable that is read again after another one. -/
theorem read_again {α : Type} (ρ : SEnv) (x y : String) (k : Value → Value → Value → S α) :
    (do let v ← readVar ρ x; let u ← readVar ρ y; let v' ← readVar ρ x; k v u v') =
      (do let v ← readVar ρ x; let u ← readVar ρ y; k v u v) := by
  funext σ
  show S.bind _ _ σ = S.bind _ _ σ
  unfold S.bind
  rcases hr : readVar ρ x σ with ⟨o, σ'⟩
  cases o with
  | ok v =>
    cases readVar_state hr
    show S.bind _ _ σ = S.bind _ _ σ
    unfold S.bind
    rcases hy : readVar ρ y σ with ⟨o, σ'⟩
    cases o with
    | ok u =>
      cases readVar_state hy
      exact bind_read hr _
    | _ => rfl
  | _ => rfl

theorem pure_then {α β : Type} (a : α) (f : α → S β) : (do let x ← (pure a : S α); f x) = f a := by
  show S.bind _ _ = _
  rfl

theorem smooth_ite {α : Type} {b : Bool} {x y : S α} (hx : Smooth x) (hy : Smooth y) : Smooth (if b = true then x else y) := by
  cases b
  · exact hy
  · exact hx

theorem smooth_overloaded (hc : ∀ f vs, Smooth (call f vs)) (name : String) (l r : Value) : Smooth (overloaded w call name l r) := by
  refine (smooth_fieldOf w _ _).bind fun m => ?_
  refine smooth_ite ?_ (hc _ _)
  intro σ j
  dsimp only
  split
  · exact hc _ _ σ j
  · exact nofun

theorem smooth_binary (hc : ∀ f vs, Smooth (call f vs)) (o : Opcode) (l r : Value) : Smooth (binary w call o l r) := by
  unfold binary
  split
  · exact smooth_pure _
  · unfold intResult
    split
    · exact smooth_pure _
    · split
      · exact fun _ _ => nofun
      · exact smooth_pure _
  · split <;> exact fun _ _ => nofun
  · split <;> exact fun _ _ => nofun
  · exact fun _ _ => nofun
  · exact smooth_overloaded w call hc _ _ _

theorem op_agrees {op : AssignOp} {b : BinaryOp} (h : op.binary = some b) : updateOp op = strictOp b ∧ (strictOp b).isSome = true ∧
    b ≠ .logicalAnd ∧ b ≠ .logicalOr ∧ b ≠ .pipeline ∧ b ≠ .coalesce := by
  cases op <;> cases h <;> simp [updateOp, strictOp]

theorem smooth_stuck {α : Type} : Smooth (S.stuck : S α) := fun _ _ => nofun

theorem smooth_classRef (c : Value) : Smooth (classRef c) := by
  cases c <;> exact fun _ _ => nofun

theorem smooth_readLoc (l : Nat) : Smooth (readLoc l) := by
  intro σ j
  unfold readLoc
  split <;> exact nofun

theorem smooth_checkType (b : Bool) (c : Nat) (v : Value) : Smooth (checkType w b c v) := by
  intro σ j
  unfold checkType
  split
  · split <;> exact nofun
  · split <;> exact nofun

theorem smooth_checkVar (t : Option TypeAnn) (l : Nat) (ρ : SEnv) : Smooth (checkVar w t l ρ) := by
  cases t with
  | none => exact smooth_pure _
  | some t =>
    exact (smooth_readVar ρ _).bind fun c => (smooth_classRef c).bind fun k => (smooth_readLoc l).bind fun v =>
      smooth_checkType w _ _ _

theorem smooth_bindParams : ∀ (args : List FnArg) (vs : List Value) (ρ : SEnv), Smooth (bindParams w args vs ρ)
  | [], _, _ => smooth_pure _
  | a :: as, vs, ρ => by
    unfold bindParams
    exact Smooth.bind (fun _ _ => nofun) fun l => (smooth_checkVar w _ _ _).bind fun _ => smooth_bindParams as _ _

theorem smooth_hoist : ∀ (es : List Expr) (ρ : SEnv), Smooth (hoist es ρ)
  | [], ρ => smooth_pure _
  | e :: es, ρ => by
    unfold hoist
    split
    · exact Smooth.bind (fun _ _ => nofun) fun l => smooth_hoist es _
    · exact smooth_hoist es ρ

theorem smooth_result (ρ : SEnv) (x : S Value) : Smooth (result ρ x) := by
  intro σ j
  unfold result
  rcases x σ with ⟨o, σ'⟩
  cases o with
  | jump k =>
    cases k with
    | ret ρ' v => dsimp only; split <;> exact nofun
    | _ => exact nofun
  | _ => exact nofun

theorem smooth_construct (hc : ∀ f vs, Smooth (call f vs)) (c : Nat) (o : Value) (vs : List Value) :
    Smooth (construct call c o vs) := by
  intro σ j
  unfold construct
  split
  · exact hc _ _ σ j
  · split
    · split <;> exact nofun
    · exact nofun

/-- A call is not left by a jump: `return` ends in the function, and the other jumps do not leave it. -/
theorem smooth_calls (known : Known) (src : Sources) : ∀ (n : Nat) (f : Value) (vs : List Value),
    Smooth ((calls w known src n).call f vs)
  | 0, _, _ => fun _ _ => nofun
  | n + 1, f, vs => by
    show Smooth (apply w known (calls w known src n) n f vs)
    unfold apply
    rcases callTarget f with ⟨v, rc⟩
    cases v with
    | fnClosure b name k us =>
      cases us with
      | nil =>
        intro σ j
        dsimp only
        split
        · refine Smooth.bind ?_ (fun ρ => Smooth.bind (smooth_hoist _ _) fun ρ => smooth_result _ _) σ j
          unfold bindArgs
          split
          · exact Smooth.bind (fun _ _ => nofun) fun l => smooth_bindParams w _ _ _
          · exact smooth_bindParams w _ _ _
        · exact nofun
      | cons => exact smooth_stuck
    | cls c => exact Smooth.bind (fun _ _ => nofun) fun o => smooth_construct _ (smooth_calls known src n) _ _ _
    | fnNative i =>
      intro σ j
      dsimp only [runNative]
      split
      · split <;> exact nofun
      · exact nofun
    | _ => exact fun _ _ => nofun

variable {w call r n}

theorem eval_ident (inside : Bool) (x : String) (ρ : SEnv) :
    eval w call r n inside (.ident x) ρ = (do let v ← readVar ρ x; pure (v, ρ)) := by
  simp only [eval]

theorem eval_element (a i : String) (ρ : SEnv) : eval w call r n false (.index (.ident a) (.ident i)) ρ = (do
    let o ← readVar ρ a
    let k ← readVar ρ i
    let v ← elementOf w o k
    pure (v, ρ)) := by
  have h1 : eval w call r n false (.index (.ident a) (.ident i)) ρ = S.noExit (do
      let (o, ρ) ← eval w call r n true (.ident a) ρ
      let (i, ρ) ← S.operand (eval w call r n false (.ident i) ρ)
      let v ← elementOf w o i
      pure (v, ρ)) := by
    simp only [eval]
    rfl
  have h2 : ∀ ρ, S.operand (eval w call r n false (.ident i) ρ) = (do let v ← readVar ρ i; pure (v, ρ)) := by
    intro ρ
    rw [eval_ident]
    exact ((smooth_readVar ρ i).bind fun _ => smooth_pure _).operand
  rw [h1]
  simp only [h2]
  simp only [eval_ident, S.bind_assoc, pure_then]
  exact ((smooth_readVar _ _).bind fun _ => (smooth_readVar _ _).bind fun _ => (smooth_elementOf w _ _).bind fun _ =>
    smooth_pure _).noExit

theorem eval_fieldOf (a f : String) (ρ : SEnv) : eval w call r n false (.field (.ident a) f) ρ = (do
    let o ← readVar ρ a
    let v ← fieldOf w f o
    pure (v, ρ)) := by
  have h1 : eval w call r n false (.field (.ident a) f) ρ = S.noExit (do
      let (o, ρ) ← eval w call r n true (.ident a) ρ
      let v ← fieldOf w f o
      pure (v, ρ)) := by
    simp only [eval]
    rfl
  rw [h1]
  simp only [eval_ident, S.bind_assoc, pure_then]
  exact ((smooth_readVar _ _).bind fun _ => (smooth_fieldOf w _ _).bind fun _ => smooth_pure _).noExit

theorem eval_update {op : AssignOp} {b : BinaryOp} (h : op.binary = some b) {o : Opcode} (ho : strictOp b = some o) (l rhs : Expr)
    (ρ : SEnv) : eval w call r n false (.binary b l rhs) ρ = (do
      let (x, ρ) ← eval w call r n false l ρ
      let (y, ρ) ← S.operand (eval w call r n false rhs ρ)
      let v ← binary w call o x y
      pure (v, ρ)) := by
  obtain ⟨-, -, h1, h2, h3, h4⟩ := op_agrees h
  cases b <;> first
    | exact absurd rfl h1
    | exact absurd rfl h2
    | exact absurd rfl h3
    | exact absurd rfl h4
    | (cases ho; simp only [eval, strictOp])

/-- **C70.**  Updating an element of a variable is assigning the updated element. -/
theorem element_update (hc : ∀ f vs, Smooth (call f vs)) {op : AssignOp} {b : BinaryOp} (h : op.binary = some b) (inside : Bool)
    (a i : String) (rhs : Expr) (ρ : SEnv) :
    eval w call r n inside (.assign op (.index (.ident a) (.ident i)) rhs) ρ =
      eval w call r n inside (.assign .assign (.index (.ident a) (.ident i)) (.binary b (.index (.ident a) (.ident i)) rhs)) ρ := by
  obtain ⟨hu, ho, -⟩ := op_agrees h
  obtain ⟨o, ho⟩ := Option.isSome_iff_exists.1 ho
  rw [ho] at hu
  have hi : ∀ ρ, S.operand (eval w call r n false (.ident i) ρ) = (do let v ← readVar ρ i; pure (v, ρ)) := by
    intro ρ
    rw [eval_ident]
    exact ((smooth_readVar ρ i).bind fun _ => smooth_pure _).operand
  have e1 : eval w call r n inside (.assign op (.index (.ident a) (.ident i)) rhs) ρ = (do
      let (o', ρ) ← eval w call r n false (.ident a) ρ
      let (i, ρ) ← S.operand (eval w call r n false (.ident i) ρ)
      let x ← elementOf w o' i
      let (y, ρ) ← S.operand (eval w call r n false rhs ρ)
      let v ← binary w call o x y
      setElementOf o' i v
      pure (.unit, ρ)) := by
    simp only [eval, hu]
  have e2 : ∀ e, eval w call r n inside (.assign .assign (.index (.ident a) (.ident i)) e) ρ = (do
      let (o', ρ) ← eval w call r n false (.ident a) ρ
      let (i, ρ) ← S.operand (eval w call r n false (.ident i) ρ)
      let (v, ρ) ← S.operand (eval w call r n false e ρ)
      setElementOf o' i v
      pure (.unit, ρ)) := by
    intro e
    simp only [eval, updateOp]
  have hs : ∀ ρ, Smooth (eval w call r n false (.binary b (.index (.ident a) (.ident i)) rhs) ρ) := by
    intro ρ
    rw [eval_update h ho, eval_element]
    exact (((smooth_readVar _ _).bind fun _ => (smooth_readVar _ _).bind fun _ => (smooth_elementOf w _ _).bind fun _ =>
      smooth_pure _)).bind fun _ => (smooth_operand _).bind fun _ => (smooth_binary w call hc _ _ _).bind fun _ => smooth_pure _
  rw [e1, e2]
  have hx := fun ρ => (hs ρ).operand
  simp only [hi, hx]
  simp only [eval_ident, S.bind_assoc, pure_then, eval_update h ho, eval_element, read_again]

/-- **C70.**  Updating a field of a variable is assigning the updated field, but for its value, which is `()`. -/
theorem field_update (hc : ∀ f vs, Smooth (call f vs)) {op : AssignOp} {b : BinaryOp} (h : op.binary = some b) (inside : Bool)
    (a f : String) (rhs : Expr) (ρ : SEnv) :
    eval w call r n inside (.assign op (.field (.ident a) f) rhs) ρ = (do
      let (_, ρ) ← eval w call r n inside (.assign .assign (.field (.ident a) f) (.binary b (.field (.ident a) f) rhs)) ρ
      pure (.unit, ρ)) := by
  obtain ⟨hu, ho, -⟩ := op_agrees h
  obtain ⟨o, ho⟩ := Option.isSome_iff_exists.1 ho
  rw [ho] at hu
  have e1 : eval w call r n inside (.assign op (.field (.ident a) f) rhs) ρ = (do
      let (o', ρ) ← eval w call r n false (.ident a) ρ
      let x ← fieldOf w f o'
      let (y, ρ) ← S.operand (eval w call r n false rhs ρ)
      let v ← binary w call o x y
      setFieldOf f o' v
      pure (.unit, ρ)) := by
    simp only [eval, hu]
  have e2 : ∀ e, eval w call r n inside (.assign .assign (.field (.ident a) f) e) ρ = (do
      let (o', ρ) ← eval w call r n false (.ident a) ρ
      let (v, ρ) ← S.operand (eval w call r n false e ρ)
      setFieldOf f o' v
      pure (v, ρ)) := by
    intro e
    simp only [eval, updateOp]
  have hs : ∀ ρ, Smooth (eval w call r n false (.binary b (.field (.ident a) f) rhs) ρ) := by
    intro ρ
    rw [eval_update h ho, eval_fieldOf]
    exact (((smooth_readVar _ _).bind fun _ => (smooth_fieldOf w _ _).bind fun _ =>
      smooth_pure _)).bind fun _ => (smooth_operand _).bind fun _ => (smooth_binary w call hc _ _ _).bind fun _ => smooth_pure _
  rw [e1, e2]
  have hx := fun ρ => (hs ρ).operand
  simp only [hx]
  simp only [eval_ident, S.bind_assoc, pure_then, eval_update h ho, eval_fieldOf, read_twice]

/-- The evaluator's own calls meet the hypothesis, and some updates are not their expansions syntactically. -/
example (known : Known) (src : Sources) (k : Nat) (a i : String) (rhs : Expr) (ρ : SEnv) :
    eval w (calls w known src k) r n false (.assign .mul (.index (.ident a) (.ident i)) rhs) ρ =
      eval w (calls w known src k) r n false
        (.assign .assign (.index (.ident a) (.ident i)) (.binary .multiply (.index (.ident a) (.ident i)) rhs)) ρ :=
  element_update (smooth_calls w known src k) rfl false a i rhs ρ

example (known : Known) (src : Sources) (k : Nat) (a f : String) (rhs : Expr) (ρ : SEnv) :
    eval w (calls w known src k) r n false (.assign .sub (.field (.ident a) f) rhs) ρ = (do
      let (_, ρ) ← eval w (calls w known src k) r n false
        (.assign .assign (.field (.ident a) f) (.binary .subtract (.field (.ident a) f) rhs)) ρ
      pure (.unit, ρ)) :=
  field_update (smooth_calls w known src k) rfl false a f rhs ρ

end Src

open Findings in
/-- **C70, refuted.**  The values of an update of a field and of its expansion differ: the update ends in `ASSIGN_FIELD`, which
leaves `()`, the plain assignment in `STORE_FIELD`, which leaves the value
(dice-compiler/src/visitor/expr_assignment.rs:68-94). -/
theorem field_update_value :
    Gives true "let o = # { a: 1 } o.a += 1" .unit 0 ∧ Gives true "let o = # { a: 1 } o.a = o.a + 1" (.int 2) 0 :=
  ⟨gives (e := .block [let_ "o" (.object [("a", .int 1)])] (some (.assign .add (.field (var "o") "a") (.int 1))))
      (by kernel_rfl) (by decide +kernel),
    gives (e := .block [let_ "o" (.object [("a", .int 1)])]
      (some (.assign .assign (.field (var "o") "a") (.binary .add (.field (var "o") "a") (.int 1)))))
      (by kernel_rfl) (by decide +kernel)⟩

end Dice
