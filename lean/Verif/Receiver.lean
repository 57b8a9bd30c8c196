import Verif.PinnedProps
import Verif.Keeps

/-!
# A constructor gives its receiver

In the reference evaluator, an expression that does not declare a name leaves the variable of that name visible, up to every place
where it returns early.  With `Pinned` it follows that calling a class gives the new instance.
-/

namespace Dice

namespace Src

mutual

/-- Nothing in the expression declares a variable, function, class or loop variable `x`; functions inside of it are not looked
into. -/
def free (x : String) : Expr → Bool
  | .varDecl (.singular y) _ e _ => y != x && free x e
  | .varDecl (.destructured ys) _ e _ => ys.all (· != x) && free x e
  | .importDecl none ys _ => ys.all (· != x)
  | .importDecl (some y) ys _ => y != x && ys.all (· != x)
  | .fnDecl y _ _ _ => y != x
  | .classDecl y b _ => y != x && freeOpt x b
  | .exportDecl e => free x e
  | .forLoop y e b => y != x && free x e && free x b
  | .object fs => freeFields x fs
  | .list es => freeAll x es
  | .assign _ t e => free x t && free x e
  | .unary _ e => free x e
  | .binary _ a b => free x a && free x b
  | .ifExpr a b e => free x a && free x b && freeOpt x e
  | .loop e => free x e
  | .whileLoop a b => free x a && free x b
  | .block es t => freeAll x es && freeOpt x t
  | .return_ e => freeOpt x e
  | .field e _ => free x e
  | .index e i => free x e && free x i
  | .call e es => free x e && freeAll x es
  | .superCall es => freeAll x es
  | .is e _ => free x e
  | .nullProp e => free x e
  | .errProp e => free x e
  | _ => true

def freeAll (x : String) : List Expr → Bool
  | [] => true
  | e :: es => free x e && freeAll x es

def freeFields (x : String) : List (String × Expr) → Bool
  | [] => true
  | f :: fs => free x f.2 && freeFields x fs

def freeOpt (x : String) : Option Expr → Bool
  | none => true
  | some e => free x e

end

/-- An environment with further variables, none of them of that name. -/
def Adds (x : String) (ρ ρ' : SEnv) : Prop := ∃ new, ρ' = new ++ ρ ∧ ∀ p ∈ new, p.1 ≠ x

theorem Adds.refl (x : String) (ρ : SEnv) : Adds x ρ ρ := ⟨[], rfl, fun _ h => (List.not_mem_nil h).elim⟩

theorem Adds.cons {x y : String} {ρ ρ' : SEnv} {l : Nat} (h : Adds x ρ ρ') (hy : (y != x) = true) : Adds x ρ ((y, l) :: ρ') := by
  obtain ⟨new, rfl, hn⟩ := h
  refine ⟨(y, l) :: new, rfl, fun p hp => ?_⟩
  rcases List.mem_cons.1 hp with rfl | hp
  · simpa using hy
  · exact hn p hp

/-- No early return. -/
structure NoRet {α : Type} (X : S α) : Prop where
  run : ∀ σ ρ u σ', X σ ≠ (.jump (.ret ρ u), σ')

/-- Ordinary results satisfy `P`, and an early return gives the value of `x`, in an environment that adds to `ρ`. -/
structure Homes (x : String) (ρ : SEnv) {α : Type} (X : S α) (P : α → Prop) : Prop where
  ok : ∀ σ a σ', X σ = (.ok a, σ') → P a
  ret : ∀ σ ρ' u σ', X σ = (.jump (.ret ρ' u), σ') → Adds x ρ ρ' ∧ readVar ρ' x σ' = (.ok u, σ')

section
variable {α β : Type} {x : String} {ρ : SEnv}

theorem NoRet.bind {X : S α} {f : α → S β} (h : NoRet X) (k : ∀ a, NoRet (f a)) : NoRet (X >>= f) := by
  constructor
  intro σ ρ u σ' he
  rw [run_bind] at he
  rcases hx : X σ with ⟨o, σ1⟩
  rw [hx] at he
  cases o with
  | ok a => exact (k a).run _ _ _ _ he
  | jump j =>
    cases he
    exact h.run _ _ _ _ hx
  | _ => cases he

theorem NoRet.homes {X : S α} (h : NoRet X) : Homes x ρ X fun _ => True :=
  ⟨fun _ _ _ _ => trivial, fun σ _ _ _ he => (h.run σ _ _ _ he).elim⟩

theorem Homes.bind {X : S α} {f : α → S β} {Q : α → Prop} {P : β → Prop} (h : Homes x ρ X Q) (k : ∀ a, Q a → Homes x ρ (f a) P) :
    Homes x ρ (X >>= f) P := by
  constructor
  · intro σ b σ' he
    rw [run_bind] at he
    rcases hx : X σ with ⟨o, σ1⟩
    rw [hx] at he
    cases o with
    | ok a => exact (k a (h.ok _ _ _ hx)).ok _ _ _ he
    | _ => cases he
  · intro σ ρ' u σ' he
    rw [run_bind] at he
    rcases hx : X σ with ⟨o, σ1⟩
    rw [hx] at he
    cases o with
    | ok a => exact (k a (h.ok _ _ _ hx)).ret _ _ _ _ he
    | jump j =>
      cases he
      exact h.ret _ _ _ _ hx
    | _ => cases he

theorem Homes.any {X : S α} {f : α → S β} {P : β → Prop} (h : NoRet X) (k : ∀ a, Homes x ρ (f a) P) : Homes x ρ (X >>= f) P :=
  h.homes.bind fun a _ => k a

theorem Homes.env {X : S (α × SEnv)} {f : α × SEnv → S β} {P : β → Prop} (h : Homes x ρ X fun p => Adds x ρ p.2)
    (k : ∀ v ρ', Adds x ρ ρ' → Homes x ρ (f (v, ρ')) P) : Homes x ρ (X >>= f) P :=
  h.bind fun | (v, ρ'), hp => k v ρ' hp

theorem Homes.envOnly {X : S SEnv} {f : SEnv → S β} {P : β → Prop} (h : Homes x ρ X (Adds x ρ))
    (k : ∀ ρ', Adds x ρ ρ' → Homes x ρ (f ρ') P) : Homes x ρ (X >>= f) P :=
  h.bind k

theorem Homes.opt {X : S (Option α)} {f : Option α → S β} {P : β → Prop} (h : Homes x ρ X fun _ => True)
    (k : ∀ a, Homes x ρ (f a) P) : Homes x ρ (X >>= f) P :=
  h.bind fun a _ => k a

theorem homes_pure {a : α} {P : α → Prop} (h : P a) : Homes x ρ (pure a) P :=
  ⟨fun _ _ _ he => by cases he; exact h, fun _ _ _ _ he => by cases he⟩

theorem noret_pure {a : α} : NoRet (pure a : S α) := ⟨fun _ _ _ _ he => by cases he⟩
theorem noret_stuck : NoRet (S.stuck : S α) := ⟨fun _ _ _ _ he => by cases he⟩
theorem noret_abort : NoRet (S.abort : S α) := ⟨fun _ _ _ _ he => by cases he⟩
theorem noret_err {e : RtErr} : NoRet (S.err e : S α) := ⟨fun _ _ _ _ he => by cases he⟩
theorem noret_timeout : NoRet (S.timeout : S α) := ⟨fun _ _ _ _ he => by cases he⟩

theorem homes_stuck {P : α → Prop} : Homes x ρ S.stuck P := ⟨fun _ _ _ h => (by cases h), fun _ _ _ _ h => (by cases h)⟩

theorem homes_brk {ρ' : SEnv} {P : α → Prop} : Homes x ρ (S.jump (.brk ρ')) P := ⟨fun _ _ _ h => (by cases h), fun _ _ _ _ h => (by cases h)⟩
theorem homes_cont {ρ' : SEnv} {P : α → Prop} : Homes x ρ (S.jump (.cont ρ')) P := ⟨fun _ _ _ h => (by cases h), fun _ _ _ _ h => (by cases h)⟩
theorem homes_exit {ρ' : SEnv} {P : α → Prop} : Homes x ρ (S.jump (.exit ρ')) P := ⟨fun _ _ _ h => (by cases h), fun _ _ _ _ h => (by cases h)⟩

theorem noret_operand {X : S α} : NoRet X.operand := by
  constructor
  intro σ ρ u σ' he
  unfold S.operand at he
  rcases hx : X σ with ⟨o, σ1⟩
  rw [hx] at he
  cases o <;> cases he

theorem Homes.operand {X : S α} {P : α → Prop} (h : Homes x ρ X P) : Homes x ρ X.operand P := by
  refine ⟨fun σ a σ' he => ?_, fun σ _ _ _ he => (noret_operand.run σ _ _ _ he).elim⟩
  unfold S.operand at he
  rcases hx : X σ with ⟨o, σ1⟩
  rw [hx] at he
  cases o <;> cases he
  exact h.ok _ _ _ hx

theorem Homes.noReturn {X : S α} : Homes x ρ X.noReturn fun _ => True := by
  refine ⟨fun _ _ _ _ => trivial, fun σ ρ' u σ' he => ?_⟩
  unfold S.noReturn at he
  rcases hx : X σ with ⟨o, σ1⟩
  rw [hx] at he
  cases o with
  | jump j => cases j <;> cases he
  | _ => cases he

theorem Homes.noExit {X : S α} {P : α → Prop} (h : Homes x ρ X P) : Homes x ρ X.noExit P := by
  constructor
  · intro σ a σ' he
    unfold S.noExit at he
    rcases hx : X σ with ⟨o, σ1⟩
    rw [hx] at he
    cases o with
    | jump j => cases j <;> cases he
    | ok b =>
      cases he
      exact h.ok _ _ _ hx
    | _ => cases he
  · intro σ ρ' u σ' he
    unfold S.noExit at he
    rcases hx : X σ with ⟨o, σ1⟩
    rw [hx] at he
    cases o with
    | jump j =>
      cases j <;> cases he
      exact h.ret _ _ _ _ hx
    | _ => cases he

theorem Homes.guard {X : S α} {P : α → Prop} {b : Bool} (h : Homes x ρ X P) : Homes x ρ (S.guard b X) P := by
  unfold S.guard
  split
  · exact h
  · exact homes_stuck

theorem Homes.ite {X Y : S α} {P : α → Prop} {c : Prop} [Decidable c] (h : Homes x ρ X P) (k : Homes x ρ Y P) :
    Homes x ρ (if c then X else Y) P := by
  split
  · exact h
  · exact k

theorem NoRet.ite {X Y : S α} {c : Prop} [Decidable c] (h : NoRet X) (k : NoRet Y) : NoRet (if c then X else Y) := by
  split
  · exact h
  · exact k

theorem Homes.close {X : S (Value × SEnv)} {ρ1 : SEnv} (h : Homes x ρ X fun p => Adds x ρ p.2) (h1 : Adds x ρ ρ1) :
    Homes x ρ (X.close ρ1) fun p => Adds x ρ p.2 := by
  constructor
  · intro σ a σ' he
    unfold S.close at he
    rcases hx : X σ with ⟨o, σ1⟩
    rw [hx] at he
    cases o with
    | jump j =>
      cases j with
      | exit ρ' =>
        dsimp only at he
        split at he <;> cases he
        exact h1
      | _ => cases he
    | ok b =>
      cases he
      exact h.ok _ _ _ hx
    | _ => cases he
  · intro σ ρ' u σ' he
    unfold S.close at he
    rcases hx : X σ with ⟨o, σ1⟩
    rw [hx] at he
    cases o with
    | jump j =>
      cases j with
      | exit ρ' =>
        dsimp only at he
        split at he <;> cases he
      | ret => 
        cases he
        exact h.ret _ _ _ _ hx
      | _ => cases he
    | _ => cases he

theorem Homes.chainEnd {X : S (Value × SEnv)} {ρ1 : SEnv} {inside : Bool} {e : Expr} (h : Homes x ρ X fun p => Adds x ρ p.2)
    (h1 : Adds x ρ ρ1) : Homes x ρ (chainEnd inside e ρ1 X) fun p => Adds x ρ p.2 := by
  unfold Src.chainEnd
  split
  · exact h
  · split
    · exact h.noExit
    · exact (h.close h1).guard

end

theorem readVar_noret {ρ : SEnv} {x : String} {σ : State} (j : Jump) (σ' : State) : readVar ρ x σ ≠ (.jump j, σ') := by
  intro h
  unfold readVar at h
  cases hl : ρ.lookup x with
  | some l =>
    rw [hl] at h
    dsimp only [readLoc] at h
    split at h <;> cases h
  | none =>
    rw [hl] at h
    dsimp only [globalVar] at h
    split at h <;> cases h

/-- An early `return` of a constructor. -/
theorem homes_return {α : Type} {x : String} {ρ ρ1 : SEnv} {P : α → Prop} (h : Adds x ρ ρ1) :
    Homes x ρ (do
      let v ← readVar ρ1 x
      S.jump (.ret ρ1 v)) P := by
  constructor
  · intro σ a σ' he
    rw [run_bind] at he
    rcases hx : readVar ρ1 x σ with ⟨o, σ1⟩
    rw [hx] at he
    cases o <;> cases he
  · intro σ ρ' u σ' he
    rw [run_bind] at he
    rcases hx : readVar ρ1 x σ with ⟨o, σ1⟩
    have hs : σ1 = σ := by
      have : (readVar ρ1 x σ).2 = σ := by
        unfold readVar
        cases ρ1.lookup x with
        | some l =>
          dsimp only [readLoc]
          split <;> rfl
        | none =>
          dsimp only [globalVar]
          split <;> rfl
      rw [hx] at this
      exact this
    rw [hx] at he
    cases o with
    | ok v =>
      cases he
      subst hs
      exact ⟨h, hx⟩
    | jump j => exact (readVar_noret _ _ hx).elim
    | _ => cases he

/-! ## Actions without early returns -/

local macro "noret_cases" f:ident : tactic => `(tactic| (
  constructor
  intro σ ρ u σ' he
  unfold $f at he
  repeat' (split at he)
  all_goals cases he))

section
variable {w : World}

theorem noret_alloc {v : Option Value} : NoRet (alloc v) := ⟨fun _ _ _ _ he => by cases he⟩
theorem noret_writeLoc {l : Nat} {v : Value} : NoRet (writeLoc l v) := ⟨fun _ _ _ _ he => by cases he⟩
theorem noret_newFn {form : Form} {args : List FnArg} {ret : Option TypeAnn} {body : Expr} {ρ : SEnv} :
    NoRet (newFn form args ret body ρ) := ⟨fun _ _ _ _ he => by cases he⟩
theorem noret_onHeap {α : Type} {f : Heap → α × Heap} : NoRet (onHeap f) := ⟨fun _ _ _ _ he => by cases he⟩
theorem noret_readLoc {l : Nat} : NoRet (readLoc l) := by noret_cases readLoc
theorem noret_globalVar {y : String} : NoRet (globalVar y) := by noret_cases globalVar
theorem noret_readVar {ρ : SEnv} {y : String} : NoRet (readVar ρ y) := by
  unfold readVar
  cases ρ.lookup y
  · exact noret_globalVar
  · exact noret_readLoc
theorem noret_defineOp {y : String} {v : Value} : NoRet (defineOp y v) := by noret_cases defineOp
theorem noret_classRef {v : Value} : NoRet (classRef v) := by
  unfold classRef
  cases v <;> first | exact noret_pure | exact noret_err
theorem noret_checkType {b : Bool} {c : Nat} {v : Value} : NoRet (checkType w b c v) := by noret_cases checkType
theorem noret_checkVar {t : Option TypeAnn} {l : Nat} {ρ : SEnv} : NoRet (checkVar w t l ρ) := by
  unfold checkVar
  cases t with
  | none => exact noret_pure
  | some t => exact noret_readVar.bind fun _ => noret_classRef.bind fun _ => noret_readLoc.bind fun _ => noret_checkType
theorem noret_testType {c v : Value} : NoRet (testType w c v) :=
  noret_classRef.bind fun _ => ⟨fun _ _ _ _ he => by cases he⟩
theorem noret_fieldOf {f : String} {v : Value} : NoRet (fieldOf w f v) := by noret_cases fieldOf
theorem noret_setFieldOf {f : String} {o v : Value} : NoRet (setFieldOf f o v) := by noret_cases setFieldOf
theorem noret_elementOf {o i : Value} : NoRet (elementOf w o i) := by
  cases i with
  | sym key =>
    have he : elementOf w o (.sym key) = fieldOf w key o := by cases o <;> rfl
    rw [he]
    exact noret_fieldOf
  | int n =>
    cases o with
    | array a =>
      constructor
      intro σ ρ u σ' he
      change (match σ.heap.arrays[a]? with
        | some arr => ((.ok (if 0 ≤ n then (arr.elements[n.toNat]?).getD .null else .null), σ) : Out Value × State)
        | none => (.stuck, σ)) = _ at he
      split at he <;> cases he
    | _ => exact noret_err
  | _ => cases o <;> exact noret_err
theorem noret_setElementOf {o i v : Value} : NoRet (setElementOf o i v) := by
  constructor
  intro σ ρ u σ'
  have ho : ∀ (o i : Value), (match σ.heap.asObject o, i with
      | none, _ => (.err .invalidObject, σ)
      | some obj, .sym key => (.ok (), { σ with heap := σ.heap.setField obj key v })
      | some _, _ => (.err .invalidSymbol, σ) : Out Unit × State) ≠ (.jump (.ret ρ u), σ') := by
    intro o i
    cases σ.heap.asObject o with
    | none => exact nofun
    | some obj => cases i <;> exact nofun
  cases o with
  | array a =>
    cases i with
    | int n =>
      unfold setElementOf
      dsimp only
      cases σ.heap.arrays[a]? with
      | none => exact nofun
      | some arr =>
        dsimp only
        by_cases h : 0 ≤ n ∧ n.toNat < arr.elements.length
        · rw [if_pos h]
          exact nofun
        · rw [if_neg h]
          exact nofun
    | _ => exact ho _ _
  | _ => cases i <;> first | exact ho (.object _) _ | exact ho (.cls _) _ | (intro h; cases h; done)
theorem noret_newClass {y : String} {k : Nat} : NoRet (newClass y k) := by noret_cases newClass
theorem noret_derive {y : String} {b : Value} : NoRet (derive w y b) :=
  noret_classRef.bind fun _ => NoRet.ite noret_err noret_newClass
theorem noret_setMethodOf {y : String} {c v : Value} : NoRet (setMethodOf y c v) :=
  noret_classRef.bind fun _ => noret_onHeap
theorem noret_superMethod {y : String} {c v : Value} : NoRet (superMethod w y c v) := by
  refine noret_classRef.bind fun _ => ⟨fun σ ρ u σ' he => ?_⟩
  repeat' (split at he)
  all_goals cases he
theorem noret_intResult {i : Int} : NoRet (intResult w i) := by
  unfold intResult
  exact NoRet.ite noret_pure (NoRet.ite noret_abort noret_pure)
theorem noret_unary {op : UnaryOp} {v : Value} : NoRet (unary w op v) := by
  unfold unary
  split <;> first | exact noret_intResult | exact noret_pure | exact noret_err
theorem noret_truth {v : Value} : NoRet (truth v) := by
  unfold truth
  cases v <;> first | exact noret_pure | exact noret_err
theorem noret_operandBool {v : Value} : NoRet (operandBool v) := by
  unfold operandBool
  cases v <;> first | exact noret_pure | exact noret_err
theorem noret_members {c : Value} : ∀ (es : List Expr) (ρ : SEnv), NoRet (members c es ρ)
  | [], _ => noret_pure
  | e :: rest, ρ => by
    cases e with
    | fnDecl name args ret body =>
      simp only [members]
      rcases memberForm name args with _ | _ | _ | _
      · exact noret_stuck
      · exact noret_newFn.bind fun _ => noret_setFieldOf.bind fun _ => noret_members rest ρ
      · exact noret_newFn.bind fun _ => noret_setMethodOf.bind fun _ => noret_members rest ρ
      · exact noret_newFn.bind fun _ => noret_setMethodOf.bind fun _ => noret_members rest ρ
    | opDecl op args ret body =>
      simp only [members]
      exact noret_newFn.bind fun _ => noret_setMethodOf.bind fun _ => noret_members rest ρ
    | _ => exact noret_stuck

end

/-- Calls and imports do not return early. -/
structure NoRetCalls (call : Calls) : Prop where
  calls : ∀ f vs, NoRet (call.call f vs)
  loads : ∀ p, NoRet (call.load p)

section
variable {w : World} {call : Calls} (hc : NoRetCalls call) {n : Nat}
include hc

theorem noret_construct {c : Nat} {o : Value} {vs : List Value} : NoRet (construct call c o vs) := by
  constructor
  intro σ ρ u σ' he
  unfold construct at he
  split at he
  · exact (hc.calls _ _).run _ _ _ _ he
  · repeat' (split at he)
    all_goals cases he

theorem noret_overloaded {y : String} {l r : Value} : NoRet (overloaded w call y l r) := by
  refine noret_fieldOf.bind fun m => NoRet.ite ⟨fun σ ρ u σ' he => ?_⟩ (hc.calls _ _)
  split at he
  · exact (hc.calls _ _).run _ _ _ _ he
  · cases he

theorem noret_binary {o : Opcode} {l r : Value} : NoRet (binary w call o l r) := by
  unfold binary
  cases binDecide w o l r with
  | value => exact noret_pure
  | int => exact noret_intResult
  | quotient => exact NoRet.ite noret_pure noret_abort
  | remainder => exact NoRet.ite noret_pure noret_abort
  | divideByZero => exact noret_err
  | call => exact noret_overloaded hc

end

theorem noret_runNative {w : World} {known : Known} {i : Nat} {vs : List Value} : NoRet (runNative w known i vs) := by
  noret_cases runNative

theorem noret_result {ρ : SEnv} {X : S Value} : NoRet (result ρ X) := by
  constructor
  intro σ ρ' u σ' he
  unfold result at he
  rcases hx : X σ with ⟨o, σ1⟩
  rw [hx] at he
  cases o with
  | jump j =>
    cases j with
    | ret =>
      dsimp only at he
      split at he <;> cases he
    | _ => cases he
  | _ => cases he

theorem noret_hoist : ∀ (es : List Expr) (ρ : SEnv), NoRet (hoist es ρ)
  | [], _ => noret_pure
  | e :: es, ρ => by
    simp only [hoist]
    cases hoisted e with
    | none => exact noret_hoist es ρ
    | some y => exact noret_alloc.bind fun _ => noret_hoist es _

theorem noret_bindParams {w : World} : ∀ (as : List FnArg) (vs : List Value) (ρ : SEnv), NoRet (bindParams w as vs ρ)
  | [], _, _ => noret_pure
  | _ :: as, _, _ => noret_alloc.bind fun _ => noret_checkVar.bind fun _ => noret_bindParams as _ _

theorem noret_invoke {w : World} {call : Calls} {n : Nat} {cl : Closure} {self : Value} {vs : List Value} :
    NoRet (invoke w call n cl self vs) := by
  have h : NoRet (bindArgs w cl self vs) := by
    unfold bindArgs
    cases cl.form
    · exact noret_alloc.bind fun _ => noret_bindParams _ _ _
    · exact noret_bindParams _ _ _
    · exact noret_bindParams _ _ _
  exact h.bind fun _ => (noret_hoist _ _).bind fun _ => noret_result

theorem noret_apply {w : World} {known : Known} {call : Calls} (hc : NoRetCalls call) {n : Nat} {f : Value} {vs : List Value} :
    NoRet (apply w known call n f vs) := by
  unfold apply
  rcases callTarget f with ⟨v, rc⟩
  cases v with
  | fnClosure b y i us =>
    cases us with
    | nil =>
      constructor
      intro σ ρ u σ' he
      dsimp only at he
      split at he
      · exact noret_invoke.run _ _ _ _ he
      · cases he
    | cons => exact noret_stuck
  | fnScript => exact noret_stuck
  | cls c => exact noret_onHeap.bind fun _ => noret_construct hc
  | fnNative i => exact noret_runNative
  | _ => exact noret_err

theorem noret_load {w : World} {src : Sources} {call : Calls} {n : Nat} {p : String} : NoRet (load w src call n p) := by
  constructor
  intro σ ρ u σ' he
  unfold load at he
  split at he
  · cases he
  · dsimp only at he
    split at he
    · cases he
    · split at he
      · exact noret_operand.run _ _ _ _ he
      · cases he

theorem noret_calls {w : World} {known : Known} {src : Sources} : ∀ n, NoRetCalls (calls w known src n)
  | 0 => ⟨fun _ _ => noret_timeout, fun _ => noret_timeout⟩
  | n + 1 => ⟨fun _ _ => noret_apply (noret_calls n), fun _ => noret_load⟩

/-! ## Expressions that do not declare the name -/

section
variable {α : Type} {x : String} {ρ0 : SEnv}

theorem homes_iter {ρ : SEnv} {next : Option α} {body : α → S (Option α)} (h : ∀ a, Homes x ρ0 (body a) fun _ => True) :
    ∀ (n : Nat) (a : α), Homes x ρ0 (iter ρ next body n a) fun _ => True
  | 0, _ => noret_timeout.homes
  | n + 1, a => by
    refine ⟨fun _ _ _ _ => trivial, fun σ ρ' u σ' he => ?_⟩
    simp only [iter] at he
    rcases hx : body a σ with ⟨o, σ1⟩
    rw [hx] at he
    cases o with
    | ok b =>
      cases b with
      | some b => exact (homes_iter h n b).ret _ _ _ _ he
      | none => cases he
    | jump j =>
      cases j with
      | brk ρ1 =>
        dsimp only at he
        split at he <;> cases he
      | cont ρ1 =>
        cases next with
        | none => cases he
        | some b =>
          dsimp only at he
          split at he
          · cases he
          · exact (homes_iter h n b).ret _ _ _ _ he
      | ret ρ1 v =>
        cases he
        exact (h a).ret _ _ _ _ hx
      | _ => cases he
    | _ => cases he

theorem hoisted_free : ∀ (e : Expr) (y : String), free x e = true → hoisted e = some y → (y != x) = true
  | .fnDecl .., y, h, hh => by
    cases hh
    simpa only [free] using h
  | .classDecl .., y, h, hh => by
    cases hh
    simp only [free, Bool.and_eq_true] at h
    exact h.1
  | .exportDecl e, y, h, hh => by
    simp only [free] at h
    simp only [hoisted] at hh
    exact hoisted_free e y h hh

theorem homes_hoist : ∀ (es : List Expr), freeAll x es = true → ∀ ρ, Adds x ρ0 ρ → Homes x ρ0 (hoist es ρ) (Adds x ρ0)
  | [], _, _, h => homes_pure h
  | e :: es, hf, ρ, h => by
    simp only [freeAll, Bool.and_eq_true] at hf
    simp only [hoist]
    cases hh : hoisted e with
    | none => exact homes_hoist es hf.2 ρ h
    | some y => exact Homes.any noret_alloc fun l => homes_hoist es hf.2 _ (h.cons (hoisted_free e y hf.1 hh))

theorem homes_bindFields {w : World} {v : Value} : ∀ (xs : List String), (xs.all (· != x)) = true → ∀ ρ, Adds x ρ0 ρ →
    Homes x ρ0 (bindFields w v xs ρ) (Adds x ρ0)
  | [], _, _, h => homes_pure h
  | y :: ys, hf, ρ, h => by
    simp only [List.all_cons, Bool.and_eq_true] at hf
    exact Homes.any noret_fieldOf fun _ => Homes.any noret_alloc fun l => homes_bindFields ys hf.2 _ (h.cons hf.1)

theorem homes_block {es : List Expr} {t : Option Expr} {stmts : SEnv → S SEnv} {last : SEnv → S (Value × SEnv)} {ρ : SEnv}
    (hf : freeAll x (es ++ t.toList) = true) (h : Adds x ρ0 ρ)
    (h1 : ∀ ρ, Adds x ρ0 ρ → Homes x ρ0 (stmts ρ) (Adds x ρ0))
    (h2 : ∀ ρ, Adds x ρ0 ρ → Homes x ρ0 (last ρ) fun p => Adds x ρ0 p.2) :
    Homes x ρ0 (block es t stmts last ρ) fun _ => True :=
  (homes_hoist _ hf _ h).envOnly fun _ g => (h1 _ g).envOnly fun _ g => (h2 _ g).env fun _ _ _ => homes_pure trivial

theorem freeAll_append : ∀ (es : List Expr) (t : Option Expr), freeAll x es = true → freeOpt x t = true →
    freeAll x (es ++ t.toList) = true
  | [], none, _, _ => rfl
  | [], some e, _, h => by
    simp only [freeOpt] at h
    simp [freeAll, h]
  | e :: es, t, h, ht => by
    simp only [freeAll, Bool.and_eq_true] at h
    simp only [List.cons_append, freeAll, Bool.and_eq_true]
    exact ⟨h.1, freeAll_append es t h.2 ht⟩

end

/-- Steps through an evaluation, with the induction hypotheses in the context. -/
local macro "homes_steps" : tactic => `(tactic| repeat' first
  | intro _
  | with_reducible exact homes_stuck
  | with_reducible exact homes_brk
  | with_reducible exact homes_cont
  | with_reducible exact homes_exit
  | ((with_reducible refine homes_return ?_); assumption)
  | ((with_reducible refine homes_pure ?_); first | trivial | assumption)
  | ((with_reducible refine Homes.chainEnd ?_ (by assumption)))
  | apply_assumption -exfalso -symm
  | with_reducible refine Homes.env (by first | (apply_assumption -exfalso -symm <;> assumption) | (apply Homes.operand; apply_assumption -exfalso -symm <;> assumption)) ?_
  | with_reducible refine Homes.envOnly (by apply_assumption -exfalso -symm <;> assumption) ?_
  | with_reducible refine Homes.any (by first
      | with_reducible exact noret_readVar | with_reducible exact noret_readLoc | with_reducible exact noret_newFn
      | with_reducible exact noret_onHeap | with_reducible exact noret_alloc | with_reducible exact noret_writeLoc
      | with_reducible exact noret_fieldOf | with_reducible exact noret_setFieldOf | with_reducible exact noret_elementOf
      | with_reducible exact noret_setElementOf | with_reducible exact noret_unary | with_reducible exact noret_truth
      | with_reducible exact noret_operandBool | with_reducible exact noret_testType | with_reducible exact noret_checkVar
      | with_reducible exact noret_defineOp | with_reducible exact noret_superMethod | with_reducible exact noret_classRef
      | (with_reducible refine noret_binary ?_; assumption) | (with_reducible refine noret_construct ?_; assumption)
      | apply_assumption -exfalso -symm) ?_
  | with_reducible refine Homes.guard ?_
  | with_reducible refine Homes.operand ?_
  | with_reducible refine Homes.ite ?_ ?_
  | dsimp only)

set_option linter.unusedSectionVars false

section
variable {w : World} {call : Calls} (hc : NoRetCalls call) {n : Nat} {x : String} {ρ0 : SEnv}
include hc

omit hc in
theorem homes_iterRound {y : String} {next : Value} {ρ : SEnv} {body : SEnv → S (Value × SEnv)} :
    Homes x ρ0 (S.operand (iterRound w call y next ρ body)) fun _ => True := noret_operand.homes

theorem homes_iterLoop {y : String} {source : S (Value × SEnv)} {body : SEnv → S (Value × SEnv)}
    (h : Homes x ρ0 source fun p => Adds x ρ0 p.2) : Homes x ρ0 (iterLoop w call n y source body) fun p => Adds x ρ0 p.2 := by
  refine h.env fun _ ρ hρ => Homes.any noret_fieldOf fun _ => Homes.any (hc.calls _ _) fun _ => Homes.any noret_fieldOf fun _ => ?_
  exact (homes_iter (fun _ => homes_iterRound) _ _).bind fun _ _ => homes_pure hρ

omit hc in
theorem homes_classDecl {y : String} {items : List Expr} {base : SEnv → S (Value × SEnv)} {ρ : SEnv}
    (h : Homes x ρ0 (base ρ) fun p => Adds x ρ0 p.2) : Homes x ρ0 (classDecl w y items base ρ) fun _ => True := by
  refine h.env fun b ρ1 _ => Homes.any noret_alloc fun s => ?_
  cases (("super", s) :: ρ1).lookup y with
  | none => exact homes_stuck
  | some l =>
    exact Homes.any noret_derive fun _ => Homes.any noret_writeLoc fun _ => Homes.any (noret_members _ _) fun _ => homes_pure trivial

mutual

/-- Early returns of a constructor give the receiver, and what follows sees it. -/
theorem homes_eval : ∀ (e : Expr), free x e = true → ∀ (inside : Bool) (ρ : SEnv), Adds x ρ0 ρ → x = "self" →
    Homes x ρ0 (eval w call .constructor n inside e ρ) fun p => Adds x ρ0 p.2
  | .ident _, _, _, _, _, _ | .unit, _, _, _, _, _ | .null, _, _, _, _, _ | .bool _, _, _, _, _, _ | .int _, _, _, _, _, _
  | .float _, _, _, _, _, _ | .str _, _, _, _, _, _ | .anonFn .., _, _, _, _, _ | .opDecl .., _, _, _, _, _
  | .break_, _, _, _, _, _ | .continue_, _, _, _, _, _ | .superAccess .., _, _, _, _, _ => by
    simp only [eval]
    homes_steps
  | .block es t, h, _, _, hρ, hx => by
    simp only [free, Bool.and_eq_true] at h
    simp only [eval]
    exact (homes_block (freeAll_append es t h.1 h.2) hρ (fun _ g => homes_stmts es h.1 _ g hx)
      (fun _ g => homes_opt t h.2 _ g hx)).bind fun _ _ => homes_pure hρ
  | .fnDecl y .., _, _, ρ, hρ, _ => by
    simp only [eval]
    cases ρ.lookup y <;> homes_steps
  | .classDecl y none _, h, _, ρ, hρ, _ => by
    simp only [eval]
    have g : Homes x ρ0 (do
        let b ← readVar ρ "Any"
        pure (b, ρ)) fun p => Adds x ρ0 p.2 := by
      refine Homes.any noret_readVar fun _ => ?_
      exact homes_pure hρ
    exact (homes_classDecl g).bind fun _ _ => homes_pure hρ
  | .classDecl y (some b) _, h, _, ρ, hρ, hx => by
    simp only [free, freeOpt, Bool.and_eq_true] at h
    simp only [eval]
    exact (homes_classDecl (homes_eval b h.2 _ _ hρ hx)).bind fun _ _ => homes_pure hρ
  | .object fs, h, _, _, hρ, hx => by
    have h1 := fun o ρ hρ => homes_fields fs h o ρ hρ hx
    simp only [eval]
    homes_steps
  | .list es, h, _, _, hρ, hx => by
    have h1 := fun ρ hρ => homes_all es h ρ hρ hx
    simp only [eval]
    homes_steps
  | .assign op t rhs, h, _, _, hρ, hx => by
    by_cases h1 : ∃ y, t = .ident y
    · obtain ⟨y, rfl⟩ := h1
      rename_i ρ
      simp only [free, Bool.and_eq_true] at h
      have h1 := fun i ρ hρ => homes_eval rhs h.2 i ρ hρ hx
      simp only [eval]
      cases ρ.lookup y <;> cases updateOp op <;> homes_steps
    · by_cases h2 : ∃ e f, t = .field e f
      · obtain ⟨e, f, rfl⟩ := h2
        simp only [free, Bool.and_eq_true] at h
        have h1 := fun i ρ hρ => homes_eval e h.1 i ρ hρ hx
        have h2 := fun i ρ hρ => homes_eval rhs h.2 i ρ hρ hx
        simp only [eval]
        cases updateOp op <;> homes_steps
      · by_cases h3 : ∃ e i, t = .index e i
        · obtain ⟨e, i, rfl⟩ := h3
          simp only [free, Bool.and_eq_true] at h
          have h1 := fun j ρ hρ => homes_eval e h.1.1 j ρ hρ hx
          have h2 := fun j ρ hρ => homes_eval i h.1.2 j ρ hρ hx
          have h3 := fun j ρ hρ => homes_eval rhs h.2 j ρ hρ hx
          simp only [eval]
          cases updateOp op <;> homes_steps
        · cases t with
          | ident y => exact absurd ⟨y, rfl⟩ h1
          | field e f => exact absurd ⟨e, f, rfl⟩ h2
          | index e i => exact absurd ⟨e, i, rfl⟩ h3
          | _ =>
            simp only [eval]
            exact homes_stuck
  | .unary _ e, h, _, _, hρ, hx => by
    have h1 := fun i ρ hρ => homes_eval e h i ρ hρ hx
    simp only [eval]
    homes_steps
  | .binary op a b, h, _, _, hρ, hx => by
    simp only [free, Bool.and_eq_true] at h
    have h1 := fun i ρ hρ => homes_eval a h.1 i ρ hρ hx
    have h2 := fun i ρ hρ => homes_eval b h.2 i ρ hρ hx
    have h3 := hc.calls
    cases op <;> simp only [eval, strictOp] <;> homes_steps
  | .is e t, h, _, _, hρ, hx => by
    have h1 := fun i ρ hρ => homes_eval e h i ρ hρ hx
    simp only [eval]
    homes_steps
  | .varDecl (.singular y) _ e t, h, _, _, hρ, hx => by
    simp only [free, Bool.and_eq_true] at h
    simp only [eval]
    exact (homes_eval e h.2 _ _ hρ hx).env fun _ _ g => Homes.any noret_alloc fun _ => Homes.any noret_checkVar fun _ =>
      homes_pure (g.cons h.1)
  | .varDecl (.destructured ys) _ e _, h, _, _, hρ, hx => by
    simp only [free, Bool.and_eq_true] at h
    simp only [eval]
    exact (homes_eval e h.2 _ _ hρ hx).env fun _ _ g => (homes_bindFields ys h.1 _ g).envOnly fun _ g => homes_pure g
  | .importDecl none ys _, h, _, _, hρ, _ => by
    simp only [free] at h
    simp only [eval]
    exact Homes.any (hc.loads _) fun _ => (homes_bindFields ys h _ hρ).envOnly fun _ g => homes_pure g
  | .importDecl (some y) ys _, h, _, _, hρ, _ => by
    simp only [free, Bool.and_eq_true] at h
    simp only [eval]
    exact Homes.any (hc.loads _) fun _ => (homes_bindFields ys h.2 _ hρ).envOnly fun _ g => Homes.any noret_alloc fun _ =>
      homes_pure (g.cons h.1)
  | .exportDecl e, h, _, ρ, hρ, hx => by
    have h1 := fun i ρ hρ => homes_eval e h i ρ hρ hx
    simp only [eval]
    cases ρ.lookup exports <;> cases exported e <;> homes_steps
  | .ifExpr a b e, h, _, _, hρ, hx => by
    simp only [free, Bool.and_eq_true] at h
    have h1 := fun i ρ hρ => homes_eval a h.1.1 i ρ hρ hx
    have h2 := fun i ρ hρ => homes_eval b h.1.2 i ρ hρ hx
    have h3 := fun ρ hρ => homes_opt e h.2 ρ hρ hx
    simp only [eval]
    homes_steps
  | .forLoop y e body, h, inside, ρ, hρ, hx => by
    simp only [free, Bool.and_eq_true] at h
    have h1 := fun i ρ hρ => homes_eval e h.1.2 i ρ hρ hx
    by_cases hb : ∃ op a b, e = .binary op a b
    · obtain ⟨op, a, b, rfl⟩ := hb
      have h' := h.1.2
      simp only [free, Bool.and_eq_true] at h'
      have ha := fun i ρ hρ => homes_eval a h'.1 i ρ hρ hx
      have hb := fun i ρ hρ => homes_eval b h'.2 i ρ hρ hx
      simp only [eval]
      cases rangeOp op with
      | none => exact homes_iterLoop hc (h1 _ _ hρ)
      | some cmp =>
        exact (hb _ _ hρ).env fun _ _ g => ((ha _ _ g).operand).env fun _ _ g =>
          (homes_iter (fun _ => Homes.noReturn) _ _).bind fun _ _ => homes_pure g
    · have he : eval w call .constructor n inside (.forLoop y e body) ρ =
          iterLoop w call n y (eval w call .constructor n false e ρ) (eval w call .constructor n false body) := by
        cases e with
        | binary op a b => exact absurd ⟨op, a, b, rfl⟩ hb
        | _ => simp only [eval]
      rw [he]
      exact homes_iterLoop hc (h1 _ _ hρ)
  | .loop b, h, _, _, hρ, hx => by
    cases b with
    | block es t =>
      simp only [free, Bool.and_eq_true] at h
      simp only [eval]
      exact (homes_iter (fun _ => (homes_block (freeAll_append es t h.1 h.2) hρ (fun _ g => homes_stmts es h.1 _ g hx)
        (fun _ g => homes_opt t h.2 _ g hx)).bind fun _ _ => homes_pure trivial) _ _).bind fun _ _ => homes_pure hρ
    | _ => simp only [eval]; homes_steps
  | .whileLoop a b, h, _, _, hρ, hx => by
    cases b with
    | block es t =>
      simp only [free, Bool.and_eq_true] at h
      simp only [eval]
      refine Homes.guard ((homes_iter (fun _ => ?_) _ _).bind fun _ _ => homes_pure hρ)
      exact (homes_eval a h.1 _ _ hρ hx).env fun _ _ g => Homes.any noret_truth fun _ => Homes.ite
        ((homes_block (freeAll_append es t h.2.1 h.2.2) g (fun _ g => homes_stmts es h.2.1 _ g hx)
          (fun _ g => homes_opt t h.2.2 _ g hx)).bind fun _ _ => homes_pure trivial) (homes_pure trivial)
    | _ => simp only [eval]; homes_steps
  | .return_ none, _, _, _, hρ, hx => by
    subst hx
    simp only [eval]
    exact homes_return hρ
  | .return_ (some e), _, _, _, _, _ => by
    simp only [eval]
    exact homes_stuck
  | .field e f, h, _, _, hρ, hx => by
    have h1 := fun i ρ hρ => homes_eval e h i ρ hρ hx
    simp only [eval]
    homes_steps
  | .index e i, h, _, _, hρ, hx => by
    simp only [free, Bool.and_eq_true] at h
    have h1 := fun j ρ hρ => homes_eval e h.1 j ρ hρ hx
    have h2 := fun j ρ hρ => homes_eval i h.2 j ρ hρ hx
    simp only [eval]
    homes_steps
  | .call e es, h, _, _, hρ, hx => by
    simp only [free, Bool.and_eq_true] at h
    have h1 := fun j ρ hρ => homes_eval e h.1 j ρ hρ hx
    have h2 := fun ρ hρ => homes_all es h.2 ρ hρ hx
    have h3 := hc.calls
    simp only [eval]
    homes_steps
  | .superCall es, h, _, _, hρ, hx => by
    have h2 := fun ρ hρ => homes_all es h ρ hρ hx
    simp only [eval]
    homes_steps
  | .nullProp e, h, _, _, hρ, hx => by
    have h1 := fun i ρ hρ => homes_eval e h i ρ hρ hx
    simp only [eval]
    homes_steps
  | .errProp e, h, _, _, hρ, hx => by
    have h1 := fun i ρ hρ => homes_eval e h i ρ hρ hx
    simp only [eval]
    homes_steps
termination_by e => sizeOf e

theorem homes_all : ∀ (es : List Expr), freeAll x es = true → ∀ (ρ : SEnv), Adds x ρ0 ρ → x = "self" →
    Homes x ρ0 (evalAll w call .constructor n es ρ) fun p => Adds x ρ0 p.2
  | [], _, _, hρ, _ => by
    simp only [evalAll]
    homes_steps
  | e :: es, h, _, hρ, hx => by
    simp only [freeAll, Bool.and_eq_true] at h
    have h1 := fun i ρ hρ => homes_eval e h.1 i ρ hρ hx
    have h2 := fun ρ hρ => homes_all es h.2 ρ hρ hx
    simp only [evalAll]
    homes_steps
termination_by es => sizeOf es

theorem homes_fields : ∀ (fs : List (String × Expr)), freeFields x fs = true → ∀ (o : Value) (ρ : SEnv), Adds x ρ0 ρ → x = "self" →
    Homes x ρ0 (evalFields w call .constructor n o fs ρ) (Adds x ρ0)
  | [], _, _, _, hρ, _ => by
    simp only [evalFields]
    homes_steps
  | (_, e) :: fs, h, _, _, hρ, hx => by
    simp only [freeFields, Bool.and_eq_true] at h
    have h1 := fun i ρ hρ => homes_eval e h.1 i ρ hρ hx
    have h2 := fun o ρ hρ => homes_fields fs h.2 o ρ hρ hx
    simp only [evalFields]
    homes_steps
termination_by fs => sizeOf fs

theorem homes_stmts : ∀ (es : List Expr), freeAll x es = true → ∀ (ρ : SEnv), Adds x ρ0 ρ → x = "self" →
    Homes x ρ0 (evalStmts w call .constructor n es ρ) (Adds x ρ0)
  | [], _, _, hρ, _ => by
    simp only [evalStmts]
    homes_steps
  | e :: es, h, _, hρ, hx => by
    simp only [freeAll, Bool.and_eq_true] at h
    have h1 := fun i ρ hρ => homes_eval e h.1 i ρ hρ hx
    have h2 := fun ρ hρ => homes_stmts es h.2 ρ hρ hx
    simp only [evalStmts]
    homes_steps
termination_by es => sizeOf es

theorem homes_opt : ∀ (e : Option Expr), freeOpt x e = true → ∀ (ρ : SEnv), Adds x ρ0 ρ → x = "self" →
    Homes x ρ0 (evalOpt w call .constructor n e ρ) fun p => Adds x ρ0 p.2
  | none, _, _, hρ, _ => by
    simp only [evalOpt]
    homes_steps
  | some e, h, _, hρ, hx => by
    have h1 := fun i ρ hρ => homes_eval e h i ρ hρ hx
    simp only [evalOpt]
    homes_steps
termination_by e => sizeOf e

end

end

/-! ## Constructors -/

theorem lookup_adds {x : String} {ρ ρ' : SEnv} {l : Nat} (h : Adds x ((x, l) :: ρ) ρ') :
    ρ'.lookup x = some l ∧ (ρ'.take (ρ'.length - ρ.length)).lookup x = some l := by
  obtain ⟨new, rfl, hn⟩ := h
  have key : ∀ (new rest : SEnv), (∀ p ∈ new, p.1 ≠ x) → (new ++ (x, l) :: rest).lookup x = some l := by
    intro new rest hn
    induction new with
    | nil => simp
    | cons p new ih =>
      obtain ⟨y, k⟩ := p
      have hy : (x == y) = false := by
        have := hn (y, k) List.mem_cons_self
        simpa using fun h => this h.symm
      simp only [List.cons_append, List.lookup, hy]
      exact ih fun p hp => hn p (List.mem_cons_of_mem _ hp)
  refine ⟨key new ρ hn, ?_⟩
  have : (new ++ (x, l) :: ρ).take ((new ++ (x, l) :: ρ).length - ρ.length) = new ++ (x, l) :: [] := by
    have e : new ++ (x, l) :: ρ = (new ++ [(x, l)]) ++ ρ := by simp
    rw [e]
    apply List.take_left'
    simp only [List.length_append, List.length_singleton]
    omega
  rw [this]
  exact key new [] hn

theorem homes_bindParams {w : World} {x : String} {ρ0 : SEnv} : ∀ (as : List FnArg), (∀ a ∈ as, a.name ≠ x) →
    ∀ (vs : List Value) (ρ : SEnv), Adds x ρ0 ρ → Homes x ρ0 (bindParams w as vs ρ) (Adds x ρ0)
  | [], _, _, _, h => homes_pure h
  | a :: as, ha, vs, ρ, h => Homes.any noret_alloc fun _ => Homes.any noret_checkVar fun _ =>
      homes_bindParams as (fun b hb => ha b (List.mem_cons_of_mem _ hb)) _ _
        (h.cons (by simpa using ha a List.mem_cons_self))

theorem free_body {x : String} {b : Expr} (h : free x b = true) :
    freeAll x (bodyStmts b) = true ∧ freeOpt x (bodyResult b) = true := by
  cases b with
  | block es t =>
    simp only [free, Bool.and_eq_true] at h
    exact h
  | _ => exact ⟨rfl, h⟩

variable {w : World} {known : Known} {src : Sources} {m n : Nat}

/-- **C72.**  A constructor that does not declare `self` again gives its receiver, whether it comes to its end or returns early,
and whatever it calls. -/
theorem constructor_gives_receiver (hsrc : ∀ p root, src p = some root → unset "self" root = true) {σ σ' : State} {cl : Closure}
    {rest : List FnArg} {o v : Value} {vs : List Value} (hq : Quiet "self" σ cl.env) (hform : cl.form = .constructor)
    (hargs : cl.args = ⟨"self", none⟩ :: rest) (hrest : ∀ a ∈ rest, a.name ≠ "self")
    (hu : unset "self" cl.body = true) (hf : free "self" cl.body = true)
    (h : invoke w (calls w known src m) n cl o vs σ = (.ok v, σ')) : v = o := by
  have hrole : cl.role = .constructor := by simp only [Closure.role, hform]
  obtain ⟨pins, hpins⟩ : ∃ pins : Nat → Option Value, pins = fun l => if l = σ.store.length then some o else none := ⟨_, rfl⟩
  obtain ⟨l, hl⟩ : ∃ l, l = σ.store.length := ⟨_, rfl⟩
  obtain ⟨ρ0, hρ0⟩ : ∃ ρ0 : SEnv, ρ0 = ("self", l) :: cl.env := ⟨_, rfl⟩
  have hpl : pins l = some o := by rw [hpins, hl]; simp
  obtain ⟨hp, hg⟩ : Pinned "self" pins { σ with store := σ.store ++ [some o] } ∧
      Good "self" pins (σ.store ++ [some o]).length ρ0 := by
    subst hl
    have off : ∀ k, k < σ.store.length → (pins k).isSome = true → False := by
      intro k hk hs
      rw [hpins] at hs
      dsimp only at hs
      rw [if_neg (by omega)] at hs
      cases hs
    refine ⟨⟨fun k u hk => ?_, fun c hc => ⟨(hq.fns c hc).1, fun p hp => ?_, fun p hp hs => ?_⟩⟩, fun p hp => ?_, fun p hp hs => ?_⟩
    · rw [hpins] at hk
      dsimp only at hk
      split at hk
      · rename_i heq
        cases hk
        rw [heq]
        simp
      · cases hk
    · have := (hq.fns c hc).2 p hp
      simp only [List.length_append, List.length_singleton]
      omega
    · exact (off _ ((hq.fns c hc).2 p hp) hs).elim
    · simp only [List.length_append, List.length_singleton]
      rw [hρ0] at hp
      rcases List.mem_cons.1 hp with rfl | hp
      · exact Nat.lt_succ_self _
      · exact Nat.lt_succ_of_lt (hq.env p hp)
    · rw [hρ0] at hp
      rcases List.mem_cons.1 hp with rfl | hp
      · rfl
      · exact (off _ (hq.env p hp) hs).elim
  have hcs := safe_calls (w := w) (known := known) (x := "self") (pins := pins) hsrc m
  have hcn := noret_calls (w := w) (known := known) (src := src) m
  obtain ⟨u1, u2⟩ := unset_body hu
  obtain ⟨f1, f2⟩ := free_body hf
  unfold invoke at h
  have hb : bindArgs w cl o vs = (do
      let l ← alloc (some o)
      bindParams w rest vs (("self", l) :: cl.env)) := by
    unfold bindArgs
    rw [hform, hargs]
    rfl
  rw [hb, run_bind] at h
  have hal : (do
      let l ← alloc (some o)
      bindParams w rest vs (("self", l) :: cl.env)) σ = bindParams w rest vs ρ0 { σ with store := σ.store ++ [some o] } := by
    rw [hρ0, hl]
    rfl
  rw [hal] at h
  have s1 := (safe_bindParams (x := "self") (pins := pins) (w := w) rest vs _ _ hg).run _ hp (Nat.le_refl _)
  have a1 := homes_bindParams (w := w) rest hrest vs _ (Adds.refl "self" ρ0)
  rcases h1 : bindParams w rest vs ρ0 { σ with store := σ.store ++ [some o] } with ⟨o1, σ1⟩
  rw [h1] at h s1
  cases o1 with
  | ok ρ1 =>
    have a1 := a1.ok _ _ _ h1
    dsimp only at h
    rw [run_bind] at h
    have s2 := (safe_hoist (x := "self") (pins := pins) (bodyStmts cl.body ++ (bodyResult cl.body).toList) _ _ (s1.2.2 _ rfl)).run
      _ s1.1 (Nat.le_refl _)
    have a2 := homes_hoist _ (freeAll_append _ _ f1 f2) _ a1
    rcases h2 : hoist (bodyStmts cl.body ++ (bodyResult cl.body).toList) ρ1 σ1 with ⟨o2, σ2⟩
    rw [h2] at h s2
    cases o2 with
    | ok ρ2 =>
      have a2 := a2.ok _ _ _ h2
      dsimp only at h
      unfold result at h
      rw [hrole, run_bind] at h
      have s3 := (safe_evalStmts hcs (w := w) (r := .constructor) (n := n) _ u1 _ _ (s2.2.2 _ rfl)).run _ s2.1 (Nat.le_refl _)
      have a3 := homes_stmts hcn (w := w) (n := n) _ f1 _ a2 rfl
      rcases h3 : evalStmts w (calls w known src m) .constructor n (bodyStmts cl.body) ρ2 σ2 with ⟨o3, σ3⟩
      rw [h3] at h s3
      -- the value at an early return
      have early : ∀ {σ4 : State} {ρ4 : SEnv} {u : Value}, Pinned "self" pins σ4 → Adds "self" ρ0 ρ4 →
          readVar ρ4 "self" σ4 = (.ok u, σ4) → u = o := by
        intro σ4 ρ4 u hσ ha hr
        rw [hρ0] at ha
        unfold readVar at hr
        rw [(lookup_adds ha).1] at hr
        dsimp only [readLoc] at hr
        rw [hσ.held l o hpl] at hr
        cases hr
        rfl
      cases o3 with
      | ok ρ3 =>
        have a3 := a3.ok _ _ _ h3
        dsimp only at h
        rw [run_bind] at h
        have s4 := (safe_evalOpt hcs (w := w) (r := .constructor) (n := n) _ u2 _ _ (s3.2.2 _ rfl)).run _ s3.1 (Nat.le_refl _)
        have a4 := homes_opt hcn (w := w) (n := n) _ f2 _ a3 rfl
        rcases h4 : evalOpt w (calls w known src m) .constructor n (bodyResult cl.body) ρ3 σ3 with ⟨o4, σ4⟩
        rw [h4] at h s4
        cases o4 with
        | ok p =>
          obtain ⟨u, ρ4⟩ := p
          have a4 := a4.ok _ _ _ h4
          dsimp only at h a4
          rw [hρ0] at a4
          unfold finish at h
          simp only [hrole, (lookup_adds a4).2, S.guard] at h
          cases hn : noFn cl.body with
          | false =>
            simp only [hn] at h
            cases h
          | true =>
            have hr : readLoc l σ4 = (.ok o, σ4) := by
              unfold readLoc
              rw [s4.1.held l o hpl]
            simp only [hn, if_true, hr] at h
            cases h
            rfl
        | jump j =>
          cases j with
          | ret ρ4 u =>
            dsimp only at h
            split at h <;> cases h
            obtain ⟨g1, g2⟩ := a4.ret _ _ _ _ h4
            exact early s4.1 g1 g2
          | _ => cases h
        | _ => cases h
      | jump j =>
        cases j with
        | ret ρ4 u =>
          dsimp only at h
          split at h <;> cases h
          obtain ⟨g1, g2⟩ := a3.ret _ _ _ _ h3
          exact early s3.1 g1 g2
        | _ => cases h
      | _ => cases h
    | _ => cases h
  | _ => cases h

/-- **C72.**  Calling a class whose constructor does not declare `self` again gives the new instance. -/
theorem construction_gives_instance (hsrc : ∀ p root, src p = some root → unset "self" root = true) {σ σ' : State} {cl : Closure}
    {c k : Nat} {rest : List FnArg} {v : Value} {vs : List Value} (hq : Quiet "self" σ [])
    (hm : σ.heap.method c "new" = some (closure k)) (hk : σ.fns[k]? = some cl) (hform : cl.form = .constructor)
    (hargs : cl.args = ⟨"self", none⟩ :: rest) (hrest : ∀ a ∈ rest, a.name ≠ "self") (hf : free "self" cl.body = true)
    (h : (calls w known src m).call (.cls c) vs σ = (.ok v, σ')) : v = (σ.heap.newObject c).1 := by
  have hcl := hq.fns cl (List.mem_of_getElem? hk)
  match m, h with
  | 0, h => cases h
  | 1, h =>
    change S.bind (onHeap fun h => h.newObject c) (fun o => construct _ c o vs) σ = _ at h
    change construct _ c _ vs { σ with heap := (σ.heap.newObject c).2 } = _ at h
    unfold construct at h
    have : (σ.heap.newObject c).2.method c "new" = some (closure k) := hm
    simp only [this] at h
    cases h
  | m + 2, h =>
    change construct _ c (σ.heap.newObject c).1 vs { σ with heap := (σ.heap.newObject c).2 } = _ at h
    unfold construct at h
    have : (σ.heap.newObject c).2.method c "new" = some (closure k) := hm
    simp only [this] at h
    change (match σ.fns[k]? with
      | some cl => invoke w (calls w known src m) m cl (σ.heap.newObject c).1 vs { σ with heap := (σ.heap.newObject c).2 }
      | none => (.stuck, { σ with heap := (σ.heap.newObject c).2 })) = _ at h
    rw [hk] at h
    exact constructor_gives_receiver hsrc (σ := { σ with heap := (σ.heap.newObject c).2 }) ⟨hq.fns, hcl.2⟩ hform hargs hrest hcl.1 hf h

/-- Beside it: a constructor with a parameter, a local variable and an early return, for a receiver in a heap. -/
def early : Closure :=
  ⟨.constructor, [⟨"self", none⟩, ⟨"x", none⟩], none,
    .block [.varDecl (.singular "y") false (.ident "x") none, .assign .assign (.field (.ident "self") "f") (.ident "y"),
      .ifExpr (.ident "x") (.block [.return_ none] none) none] (some (.int 3)), []⟩

example {v : Value} {vs : List Value} {o : Value} {σ σ' : State} (hσ : σ.fns = [])
    (hsrc : ∀ p root, src p = some root → unset "self" root = true)
    (h : invoke w (calls w known src m) n early o vs σ = (.ok v, σ')) : v = o :=
  constructor_gives_receiver hsrc (Quiet.start _ _ hσ) rfl rfl (by simp) (by decide) (by decide) h

example : (invoke w (calls w known src 0) 1 early (.object 0) [.bool true]
    { heap := { maps := [[]], objects := [⟨some 0, 0⟩] } }).1 = .ok (.object 0) := by rfl
example : (invoke w (calls w known src 0) 1 early (.object 0) [.bool false]
    { heap := { maps := [[]], objects := [⟨some 0, 0⟩] } }).1 = .ok (.object 0) := by rfl

end Src

open Findings in
/-- **C72, refuted.**  A constructor that declares `self` again gives that variable
(dice-compiler/src/visitor/expr_block.rs:88-103 reads the variable by its name). -/
theorem constructor_gives_other :
    Gives true "class A { fn new(self) { let self = 5 } } A()" (.int 5) 0 :=
  gives (e := seq [.classDecl "A" none [.fnDecl "new" [⟨"self", none⟩] none (.block [] (some (let_ "self" (.int 5))))]]
    (call (var "A") [])) (by kernel_rfl) (by decide +kernel)

open Findings in
/-- **C72, refuted.**  A constructor whose receiver is captured gives null. -/
theorem constructor_gives_null :
    Gives true "class A { fn new(self) { self.f = || self } } A()" .null 0 :=
  gives (e := seq [.classDecl "A" none [.fnDecl "new" [⟨"self", none⟩] none (.block []
      (some (.assign .assign (.field (var "self") "f") (fn [] (var "self")))))]]
    (call (var "A") [])) (by kernel_rfl) (by decide +kernel)

end Dice
