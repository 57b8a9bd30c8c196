import Verif.Eval

/-!
# Variables that are not assigned

In the reference evaluator, a variable keeps its value if no assignment, function declaration or class declaration has its name:
whatever is evaluated, called or imported after the declaration.
-/

namespace Dice

namespace Src

/-! ## Programs that do not set a name -/

mutual

/-- No assignment to the name, and no declaration of a function or class of that name, anywhere in the expression, the bodies
of its functions included: specification. -/
def unset (x : String) : Expr → Bool
  | .ident _ | .unit | .null | .bool _ | .int _ | .float _ | .str _ | .break_ | .continue_ | .superAccess .. | .importDecl .. => true
  | .anonFn _ _ b => unset x b
  | .object fs => unsetFields x fs
  | .list es => unsetAll x es
  | .assign _ (.ident y) e => y != x && unset x e
  | .assign _ a e => unset x a && unset x e
  | .unary _ e => unset x e
  | .binary _ a b => unset x a && unset x b
  | .is e _ => unset x e
  | .varDecl _ _ e _ => unset x e
  | .fnDecl y _ _ b => y != x && unset x b
  | .opDecl _ _ _ b => unset x b
  | .classDecl y b items => y != x && unsetOpt x b && unsetMembers x items
  | .exportDecl e => unset x e
  | .ifExpr a b e => unset x a && unset x b && unsetOpt x e
  | .loop b => unset x b
  | .whileLoop a b => unset x a && unset x b
  | .forLoop _ e b => unset x e && unset x b
  | .block es t => unsetAll x es && unsetOpt x t
  | .return_ e => unsetOpt x e
  | .nullProp e => unset x e
  | .errProp e => unset x e
  | .field e _ => unset x e
  | .index e i => unset x e && unset x i
  | .call e es => unset x e && unsetAll x es
  | .superCall es => unsetAll x es

def unsetAll (x : String) : List Expr → Bool
  | [] => true
  | e :: es => unset x e && unsetAll x es

def unsetFields (x : String) : List (String × Expr) → Bool
  | [] => true
  | f :: fs => unset x f.2 && unsetFields x fs

def unsetOpt (x : String) : Option Expr → Bool
  | none => true
  | some e => unset x e

/-- A method may have the name. -/
def unsetMember (x : String) : Expr → Bool
  | .fnDecl _ _ _ b => unset x b
  | .opDecl _ _ _ b => unset x b
  | _ => false

def unsetMembers (x : String) : List Expr → Bool
  | [] => true
  | e :: es => unsetMember x e && unsetMembers x es

end

/-! ## The invariant -/

/-- Locations that are in use; those with a pinned value have only the name `x`. -/
structure Good (x : String) (pins : Nat → Option Value) (k : Nat) (ρ : SEnv) : Prop where
  below : ∀ p ∈ ρ, p.2 < k
  named : ∀ p ∈ ρ, (pins p.2).isSome → p.1 = x

/-- A location in use whose value is not pinned. -/
structure Fresh (pins : Nat → Option Value) (k : Nat) (l : Nat) : Prop where
  below : l < k
  free : pins l = none

/-- The pinned values are in the store, and no function sets `x`. -/
structure Pinned (x : String) (pins : Nat → Option Value) (σ : State) : Prop where
  held : ∀ l v, pins l = some v → σ.store[l]? = some (some v)
  fns : ∀ cl ∈ σ.fns, unset x cl.body = true ∧ Good x pins σ.store.length cl.env

/-- An action keeps the pinned values, and its ordinary results satisfy `P` with the number of locations then in use. -/
structure Safe (x : String) (pins : Nat → Option Value) (k : Nat) {α : Type} (X : S α) (P : Nat → α → Prop) : Prop where
  run : ∀ σ, Pinned x pins σ → k ≤ σ.store.length →
    Pinned x pins (X σ).2 ∧ σ.store.length ≤ (X σ).2.store.length ∧ ∀ a, (X σ).1 = .ok a → P (X σ).2.store.length a

section
variable {x : String} {pins : Nat → Option Value} {k : Nat} {α β : Type}

theorem Good.mono {k' : Nat} {ρ : SEnv} (h : Good x pins k ρ) (hk : k ≤ k') : Good x pins k' ρ :=
  ⟨fun p hp => Nat.lt_of_lt_of_le (h.below p hp) hk, h.named⟩

theorem Fresh.mono {k' l : Nat} (h : Fresh pins k l) (hk : k ≤ k') : Fresh pins k' l :=
  ⟨Nat.lt_of_lt_of_le h.below hk, h.free⟩

theorem Good.nil : Good x pins k [] := ⟨nofun, nofun⟩

theorem Good.cons {ρ : SEnv} {y : String} {l : Nat} (h : Good x pins k ρ) (hl : Fresh pins k l) : Good x pins k ((y, l) :: ρ) := by
  constructor
  · intro p hp
    rcases List.mem_cons.1 hp with rfl | hp
    · exact hl.below
    · exact h.below p hp
  · intro p hp hs
    rcases List.mem_cons.1 hp with rfl | hp
    · rw [hl.free] at hs
      cases hs
    · exact h.named p hp hs

theorem lookup_mem {ρ : SEnv} {y : String} {l : Nat} (h : ρ.lookup y = some l) : (y, l) ∈ ρ := by
  induction ρ with
  | nil => cases h
  | cons p ρ ih =>
    rw [List.lookup_cons] at h
    split at h
    · rename_i he
      cases h
      have : y = p.1 := by simpa using he
      subst this
      exact List.mem_cons_self
    · exact List.mem_cons_of_mem _ (ih h)

theorem Good.lookup {ρ : SEnv} {y : String} {l : Nat} (h : Good x pins k ρ) (hy : (y != x) = true) (hl : ρ.lookup y = some l) :
    Fresh pins k l := by
  have hm := lookup_mem hl
  refine ⟨h.below _ hm, ?_⟩
  cases hp : pins l with
  | none => rfl
  | some v =>
    have := h.named _ hm (by rw [hp]; rfl)
    simp_all

theorem Safe.mono {X : S α} {P : Nat → α → Prop} {k' : Nat} (h : Safe x pins k X P) (hk : k ≤ k') : Safe x pins k' X P :=
  ⟨fun σ hσ hl => h.run σ hσ (Nat.le_trans hk hl)⟩

theorem Safe.bind {X : S α} {f : α → S β} {Q : Nat → α → Prop} {P : Nat → β → Prop} (h : Safe x pins k X Q)
    (c : ∀ k', k ≤ k' → ∀ a, Q k' a → Safe x pins k' (f a) P) : Safe x pins k (X >>= f) P := by
  constructor
  intro σ hσ hk
  obtain ⟨h1, h2, h3⟩ := h.run σ hσ hk
  change Pinned x pins (S.bind X f σ).2 ∧ σ.store.length ≤ (S.bind X f σ).2.store.length ∧
    ∀ a, (S.bind X f σ).1 = .ok a → P (S.bind X f σ).2.store.length a
  unfold S.bind
  rcases hx : X σ with ⟨o, σ1⟩
  rw [hx] at h1 h2 h3
  cases o with
  | ok a =>
    obtain ⟨g1, g2, g3⟩ := (c _ (Nat.le_trans hk h2) a (h3 a rfl)).run σ1 h1 (Nat.le_refl _)
    exact ⟨g1, Nat.le_trans h2 g2, g3⟩
  | _ => exact ⟨h1, h2, nofun⟩

/-- Actions after which store and functions are the same. -/
theorem safe_still {X : S α} (h : ∀ σ, (X σ).2.store = σ.store ∧ (X σ).2.fns = σ.fns) : Safe x pins k X fun _ _ => True := by
  constructor
  intro σ hσ _
  obtain ⟨h1, h2⟩ := h σ
  refine ⟨⟨?_, ?_⟩, Nat.le_of_eq (by rw [h1]), fun _ _ => trivial⟩
  · rw [h1]
    exact hσ.held
  · rw [h1, h2]
    exact hσ.fns

theorem safe_pure {a : α} {P : Nat → α → Prop} (h : ∀ k', k ≤ k' → P k' a) : Safe x pins k (pure a) P :=
  ⟨fun _ hσ hk => ⟨hσ, Nat.le_refl _, fun _ he => by cases he; exact h _ hk⟩⟩

theorem safe_stuck {P : Nat → α → Prop} : Safe x pins k S.stuck P := ⟨fun _ hσ _ => ⟨hσ, Nat.le_refl _, nofun⟩⟩
theorem safe_abort {P : Nat → α → Prop} : Safe x pins k S.abort P := ⟨fun _ hσ _ => ⟨hσ, Nat.le_refl _, nofun⟩⟩
theorem safe_timeout {P : Nat → α → Prop} : Safe x pins k S.timeout P := ⟨fun _ hσ _ => ⟨hσ, Nat.le_refl _, nofun⟩⟩
theorem safe_err {e : RtErr} {P : Nat → α → Prop} : Safe x pins k (S.err e) P := ⟨fun _ hσ _ => ⟨hσ, Nat.le_refl _, nofun⟩⟩
theorem safe_jump {j : Jump} {P : Nat → α → Prop} : Safe x pins k (S.jump j) P := ⟨fun _ hσ _ => ⟨hσ, Nat.le_refl _, nofun⟩⟩

/-- Actions that only change the outcome of another one. -/
theorem Safe.outcome {X Y : S α} {P : Nat → α → Prop} (h : Safe x pins k X P) (h2 : ∀ σ, (Y σ).2 = (X σ).2)
    (h1 : ∀ σ a, (Y σ).1 = .ok a → (X σ).1 = .ok a ∨ ∀ k', k ≤ k' → P k' a) : Safe x pins k Y P := by
  constructor
  intro σ hσ hk
  obtain ⟨g1, g2, g3⟩ := h.run σ hσ hk
  rw [h2]
  refine ⟨g1, g2, fun a ha => ?_⟩
  rcases h1 σ a ha with he | he
  · exact g3 a he
  · exact he _ (Nat.le_trans hk g2)

theorem Safe.operand {X : S α} {P : Nat → α → Prop} (h : Safe x pins k X P) : Safe x pins k X.operand P := by
  refine h.outcome (fun σ => ?_) fun σ a he => .inl ?_
  · unfold S.operand
    rcases X σ with ⟨_ | _ | _ | _ | _ | _, _⟩ <;> rfl
  · unfold S.operand at he
    revert he
    rcases X σ with ⟨_ | _ | _ | _ | _ | _, _⟩ <;> first | exact id | exact nofun

theorem Safe.noReturn {X : S α} {P : Nat → α → Prop} (h : Safe x pins k X P) : Safe x pins k X.noReturn P := by
  refine h.outcome (fun σ => ?_) fun σ a he => .inl ?_
  · unfold S.noReturn
    rcases X σ with ⟨_ | ⟨_ | _ | _ | _ | _⟩ | _ | _ | _ | _, _⟩ <;> rfl
  · unfold S.noReturn at he
    revert he
    rcases X σ with ⟨_ | ⟨_ | _ | _ | _ | _⟩ | _ | _ | _ | _, _⟩ <;> first | exact id | exact nofun

theorem Safe.returned {X : S α} {P : Nat → α → Prop} (h : Safe x pins k X P) : Safe x pins k X.returned P := by
  refine h.outcome (fun σ => ?_) fun σ a he => .inl ?_
  · unfold S.returned
    rcases X σ with ⟨_ | _ | _ | _ | _ | _, _⟩ <;> rfl
  · unfold S.returned at he
    revert he
    rcases X σ with ⟨_ | _ | _ | _ | _ | _, _⟩ <;> first | exact id | exact nofun

theorem Safe.noExit {X : S α} {P : Nat → α → Prop} (h : Safe x pins k X P) : Safe x pins k X.noExit P := by
  refine h.outcome (fun σ => ?_) fun σ a he => .inl ?_
  · unfold S.noExit
    rcases X σ with ⟨_ | ⟨_ | _ | _ | _ | _⟩ | _ | _ | _ | _, _⟩ <;> rfl
  · unfold S.noExit at he
    revert he
    rcases X σ with ⟨_ | ⟨_ | _ | _ | _ | _⟩ | _ | _ | _ | _, _⟩ <;> first | exact id | exact nofun

theorem Safe.guard {X : S α} {P : Nat → α → Prop} {b : Bool} (h : Safe x pins k X P) : Safe x pins k (S.guard b X) P := by
  unfold S.guard
  split
  · exact h
  · exact safe_stuck

theorem Safe.ite {X Y : S α} {P : Nat → α → Prop} {c : Prop} [Decidable c] (h : Safe x pins k X P) (g : Safe x pins k Y P) :
    Safe x pins k (if c then X else Y) P := by
  split
  · exact h
  · exact g

theorem Safe.close {X : S (Value × SEnv)} {ρ : SEnv} (h : Safe x pins k X fun k p => Good x pins k p.2) (hρ : Good x pins k ρ) :
    Safe x pins k (X.close ρ) fun k p => Good x pins k p.2 := by
  refine h.outcome (fun σ => ?_) fun σ a he => ?_
  · unfold S.close
    rcases X σ with ⟨_ | ⟨_ | _ | _ | _ | _⟩ | _ | _ | _ | _, _⟩ <;> first | rfl | (dsimp only; split <;> rfl)
  · unfold S.close at he
    rcases hX : X σ with ⟨o, σ1⟩
    rw [hX] at he
    cases o with
    | ok b => exact .inl he
    | jump j =>
      cases j with
      | exit ρ' =>
        dsimp only at he
        split at he <;> cases he
        exact .inr fun k' hk => hρ.mono hk
      | _ => cases he
    | _ => cases he

theorem Safe.chainEnd {X : S (Value × SEnv)} {ρ : SEnv} {inside : Bool} {e : Expr}
    (h : Safe x pins k X fun k p => Good x pins k p.2) (hρ : Good x pins k ρ) :
    Safe x pins k (chainEnd inside e ρ X) fun k p => Good x pins k p.2 := by
  unfold Src.chainEnd
  split
  · exact h
  · split
    · exact h.noExit
    · exact (h.close hρ).guard

theorem Safe.weaken {X : S α} {P Q : Nat → α → Prop} (h : Safe x pins k X P) (hq : ∀ k a, P k a → Q k a) : Safe x pins k X Q :=
  ⟨fun σ hσ hk => ⟨(h.run σ hσ hk).1, (h.run σ hσ hk).2.1, fun a ha => hq _ _ ((h.run σ hσ hk).2.2 a ha)⟩⟩

/-! ## Primitive actions -/

theorem safe_alloc {v : Option Value} : Safe x pins k (alloc v) (Fresh pins) := by
  constructor
  intro σ hσ hk
  have hn : pins σ.store.length = none := by
    cases hp : pins σ.store.length with
    | none => rfl
    | some u =>
      have := hσ.held _ _ hp
      simp at this
  unfold alloc
  refine ⟨⟨?_, ?_⟩, ?_, ?_⟩
  · intro l u hl
    have := hσ.held l u hl
    have hlt : l < σ.store.length := by
      rcases Nat.lt_or_ge l σ.store.length with h | h
      · exact h
      · rw [List.getElem?_eq_none h] at this
        cases this
    dsimp only
    rw [List.getElem?_append_left hlt]
    exact this
  · intro cl hc
    obtain ⟨h1, h2⟩ := hσ.fns cl hc
    exact ⟨h1, h2.mono (by simp)⟩
  · simp
  · intro a ha
    cases ha
    exact ⟨by simp, hn⟩

theorem safe_writeLoc {l : Nat} {v : Value} (h : Fresh pins k l) : Safe x pins k (writeLoc l v) fun _ _ => True := by
  constructor
  intro σ hσ _
  unfold writeLoc
  refine ⟨⟨?_, ?_⟩, by simp, fun _ _ => trivial⟩
  · intro m u hm
    have hne : l ≠ m := by
      rintro rfl
      rw [h.free] at hm
      cases hm
    dsimp only
    rw [List.getElem?_set_ne hne]
    exact hσ.held m u hm
  · intro cl hc
    obtain ⟨h1, h2⟩ := hσ.fns cl hc
    exact ⟨h1, h2.mono (by simp)⟩

theorem safe_newFn {form : Form} {args : List FnArg} {ret : Option TypeAnn} {body : Expr} {ρ : SEnv}
    (hb : unset x body = true) (hρ : Good x pins k ρ) : Safe x pins k (newFn form args ret body ρ) fun _ _ => True := by
  constructor
  intro σ hσ hk
  unfold newFn
  refine ⟨⟨hσ.held, ?_⟩, Nat.le_refl _, fun _ _ => trivial⟩
  intro cl hc
  rcases List.mem_append.1 hc with hc | hc
  · exact hσ.fns cl hc
  · cases List.mem_singleton.1 hc
    exact ⟨hb, hρ.mono hk⟩

theorem safe_onHeap {f : Heap → α × Heap} : Safe x pins k (onHeap f) fun _ _ => True :=
  safe_still fun _ => ⟨rfl, rfl⟩

theorem safe_readLoc {l : Nat} : Safe x pins k (readLoc l) fun _ _ => True :=
  safe_still fun σ => by
    unfold readLoc
    split <;> exact ⟨rfl, rfl⟩

theorem safe_readVar {ρ : SEnv} {y : String} : Safe x pins k (readVar ρ y) fun _ _ => True := by
  unfold readVar
  split
  · exact safe_readLoc
  · refine safe_still fun σ => ?_
    unfold globalVar
    split <;> exact ⟨rfl, rfl⟩

theorem safe_defineOp {y : String} {v : Value} : Safe x pins k (defineOp y v) fun _ _ => True :=
  safe_still fun σ => by
    unfold defineOp
    split <;> exact ⟨rfl, rfl⟩

theorem safe_classRef {v : Value} : Safe x pins k (classRef v) fun _ _ => True := by
  unfold classRef
  split
  · exact safe_pure fun _ _ => trivial
  · exact safe_err

theorem safe_checkType {w : World} {b : Bool} {c : Nat} {v : Value} : Safe x pins k (checkType w b c v) fun _ _ => True :=
  safe_still fun σ => by
    unfold checkType
    split
    · split <;> exact ⟨rfl, rfl⟩
    · split <;> exact ⟨rfl, rfl⟩

theorem safe_checkVar {w : World} {t : Option TypeAnn} {l : Nat} {ρ : SEnv} : Safe x pins k (checkVar w t l ρ) fun _ _ => True := by
  unfold checkVar
  split
  · exact safe_pure fun _ _ => trivial
  · exact safe_readVar.bind fun _ _ _ _ => safe_classRef.bind fun _ _ _ _ => safe_readLoc.bind fun _ _ _ _ => safe_checkType

theorem safe_checkResult {w : World} {t : Option TypeAnn} {v : Value} {ρ : SEnv} :
    Safe x pins k (checkResult w t v ρ) fun _ _ => True := by
  unfold checkResult
  split
  · exact safe_pure fun _ _ => trivial
  · exact safe_readVar.bind fun _ _ _ _ => safe_classRef.bind fun _ _ _ _ => safe_checkType

theorem safe_testType {w : World} {c v : Value} : Safe x pins k (testType w c v) fun _ _ => True :=
  safe_classRef.bind fun _ _ _ _ => safe_still fun _ => ⟨rfl, rfl⟩

theorem safe_fieldOf {w : World} {f : String} {v : Value} : Safe x pins k (fieldOf w f v) fun _ _ => True :=
  safe_still fun σ => by
    unfold fieldOf
    split
    · exact ⟨rfl, rfl⟩
    · split
      · exact ⟨rfl, rfl⟩
      · split <;> exact ⟨rfl, rfl⟩

theorem safe_setFieldOf {f : String} {o v : Value} : Safe x pins k (setFieldOf f o v) fun _ _ => True :=
  safe_still fun σ => by
    unfold setFieldOf
    split <;> exact ⟨rfl, rfl⟩

theorem safe_elementOf {w : World} {o i : Value} : Safe x pins k (elementOf w o i) fun _ _ => True := by
  have ha : ∀ a n, Safe x pins k (elementOf w (.array a) (.int n)) fun _ _ => True := fun a n => safe_still fun σ => by
    show (match σ.heap.arrays[a]? with
      | some arr => ((.ok (if 0 ≤ n then (arr.elements[n.toNat]?).getD .null else .null), σ) : Out Value × State)
      | none => (.stuck, σ)).2.store = σ.store ∧ (match σ.heap.arrays[a]? with
      | some arr => ((.ok (if 0 ≤ n then (arr.elements[n.toNat]?).getD .null else .null), σ) : Out Value × State)
      | none => (.stuck, σ)).2.fns = σ.fns
    cases σ.heap.arrays[a]? <;> exact ⟨rfl, rfl⟩
  cases i with
  | sym key =>
    have he : elementOf w o (.sym key) = fieldOf w key o := by cases o <;> rfl
    rw [he]
    exact safe_fieldOf
  | int n =>
    cases o with
    | array a => exact ha a n
    | _ => exact safe_err
  | _ => cases o <;> exact safe_err

theorem safe_setElementOf {o i v : Value} : Safe x pins k (setElementOf o i v) fun _ _ => True := by
  refine safe_still fun σ => ?_
  have ho : ∀ (o i : Value), ((match σ.heap.asObject o, i with
      | none, _ => (.err .invalidObject, σ)
      | some obj, .sym key => (.ok (), { σ with heap := σ.heap.setField obj key v })
      | some _, _ => (.err .invalidSymbol, σ) : Out Unit × State).2.store = σ.store) ∧ ((match σ.heap.asObject o, i with
      | none, _ => (.err .invalidObject, σ)
      | some obj, .sym key => (.ok (), { σ with heap := σ.heap.setField obj key v })
      | some _, _ => (.err .invalidSymbol, σ) : Out Unit × State).2.fns = σ.fns) := by
    intro o i
    cases σ.heap.asObject o with
    | none => exact ⟨rfl, rfl⟩
    | some obj => cases i <;> exact ⟨rfl, rfl⟩
  cases o with
  | array a =>
    cases i with
    | int n =>
      unfold setElementOf
      dsimp only
      cases σ.heap.arrays[a]? with
      | none => exact ⟨rfl, rfl⟩
      | some arr =>
        dsimp only
        by_cases h : 0 ≤ n ∧ n.toNat < arr.elements.length
        · rw [if_pos h]
          exact ⟨rfl, rfl⟩
        · rw [if_neg h]
          exact ⟨rfl, rfl⟩
    | _ => exact ho _ _
  | _ => cases i <;> first | exact ⟨rfl, rfl⟩ | exact ho (.object _) _ | exact ho (.cls _) _

theorem safe_derive {w : World} {y : String} {b : Value} : Safe x pins k (derive w y b) fun _ _ => True := by
  unfold derive
  refine safe_classRef.bind fun _ _ _ _ => ?_
  dsimp only
  split
  · exact safe_err
  · refine safe_still fun σ => ?_
    unfold newClass
    split <;> exact ⟨rfl, rfl⟩

theorem safe_setMethodOf {y : String} {c v : Value} : Safe x pins k (setMethodOf y c v) fun _ _ => True :=
  safe_classRef.bind fun _ _ _ _ => safe_onHeap

theorem safe_superMethod {w : World} {f : String} {c v : Value} : Safe x pins k (superMethod w f c v) fun _ _ => True := by
  refine safe_classRef.bind fun _ _ c _ => safe_still fun σ => ?_
  by_cases h : σ.heap.isOfType w v c = true
  · simp only [if_pos h]
    cases σ.heap.method c f <;> exact ⟨rfl, rfl⟩
  · simp only [if_neg h]
    exact ⟨trivial, trivial⟩

theorem safe_intResult {w : World} {i : Int} : Safe x pins k (intResult w i) fun _ _ => True := by
  unfold intResult
  split
  · exact safe_pure fun _ _ => trivial
  · split
    · exact safe_abort
    · exact safe_pure fun _ _ => trivial

theorem safe_unary {w : World} {op : UnaryOp} {v : Value} : Safe x pins k (unary w op v) fun _ _ => True := by
  unfold unary
  split <;> first | exact safe_intResult | exact safe_pure fun _ _ => trivial | exact safe_err

theorem safe_truth {v : Value} : Safe x pins k (truth v) fun _ _ => True := by
  unfold truth
  split <;> first | exact safe_pure fun _ _ => trivial | exact safe_err

theorem safe_operandBool {v : Value} : Safe x pins k (operandBool v) fun _ _ => True := by
  unfold operandBool
  split <;> first | exact safe_pure fun _ _ => trivial | exact safe_err

theorem safe_runNative {w : World} {known : Known} {i : Nat} {vs : List Value} :
    Safe x pins k (runNative w known i vs) fun _ _ => True := by
  refine safe_still fun σ => ?_
  unfold runNative
  by_cases h : known i vs = true
  · simp only [if_pos h]
    rcases w.native i vs σ.heap with ⟨_ | _ | _ | _, _⟩ <;> exact ⟨rfl, rfl⟩
  · simp only [if_neg h]
    exact ⟨trivial, trivial⟩

/-! ## Evaluation -/

theorem Safe.env {X : S (α × SEnv)} {f : α × SEnv → S β} {P : Nat → β → Prop}
    (h : Safe x pins k X fun k p => Good x pins k p.2)
    (c : ∀ k', k ≤ k' → ∀ v ρ, Good x pins k' ρ → Safe x pins k' (f (v, ρ)) P) : Safe x pins k (X >>= f) P :=
  h.bind fun k' hk a ha => c k' hk a.1 a.2 ha

theorem Safe.onlyEnv {X : S SEnv} {f : SEnv → S β} {P : Nat → β → Prop}
    (h : Safe x pins k X fun k ρ => Good x pins k ρ)
    (c : ∀ k', k ≤ k' → ∀ ρ, Good x pins k' ρ → Safe x pins k' (f ρ) P) : Safe x pins k (X >>= f) P :=
  h.bind c

theorem Safe.loc {v : Option Value} {f : Nat → S β} {P : Nat → β → Prop}
    (c : ∀ k', k ≤ k' → ∀ l, Fresh pins k' l → Safe x pins k' (f l) P) : Safe x pins k (alloc v >>= f) P :=
  safe_alloc.bind c

theorem Safe.any {X : S α} {f : α → S β} {P : Nat → β → Prop} (h : Safe x pins k X fun _ _ => True)
    (c : ∀ k', k ≤ k' → ∀ a, Safe x pins k' (f a) P) : Safe x pins k (X >>= f) P :=
  h.bind fun k' hk a _ => c k' hk a

end

/-- Environments of locations in use. -/
local macro "good" : tactic => `(tactic| repeat first
  | assumption
  | exact Good.mono (by assumption) (by omega)
  | exact Fresh.mono (by assumption) (by omega)
  | refine Good.cons ?_ ?_)

/-- One primitive action, or one that a hypothesis is about. -/
local macro "safe_prim" : tactic => `(tactic| first
  | (apply_assumption -exfalso -symm <;> good; done)
  | with_reducible exact safe_readVar
  | with_reducible exact safe_readLoc
  | with_reducible exact safe_fieldOf
  | with_reducible exact safe_setFieldOf
  | with_reducible exact safe_elementOf
  | with_reducible exact safe_setElementOf
  | with_reducible exact safe_onHeap
  | with_reducible exact safe_checkVar
  | with_reducible exact safe_checkResult
  | with_reducible exact (Safe.returned safe_checkResult)
  | with_reducible exact safe_testType
  | with_reducible exact safe_classRef
  | with_reducible exact safe_derive
  | with_reducible exact safe_setMethodOf
  | with_reducible exact safe_superMethod
  | with_reducible exact safe_unary
  | with_reducible exact safe_truth
  | with_reducible exact safe_operandBool
  | with_reducible exact safe_defineOp
  | ((with_reducible refine safe_writeLoc ?_); good; done)
  | ((with_reducible refine safe_newFn (by assumption) ?_); good; done))

local macro "safe_steps" : tactic => `(tactic| repeat' first
  | intro _
  | ((with_reducible refine safe_pure fun _ _ => ?_); (try dsimp only); first | trivial | (good; done))
  | with_reducible exact safe_stuck
  | with_reducible exact safe_jump
  | with_reducible exact safe_err
  | with_reducible exact safe_abort
  | safe_prim
  | with_reducible refine Safe.env (by first | safe_prim | (refine Safe.operand ?_; safe_prim)) ?_
  | with_reducible refine Safe.onlyEnv (by safe_prim) ?_
  | with_reducible refine Safe.loc ?_
  | with_reducible refine Safe.any (by safe_prim) ?_
  | with_reducible refine Safe.guard ?_
  | with_reducible refine Safe.chainEnd ?_ (by assumption)
  | with_reducible refine Safe.ite ?_ ?_
  | dsimp only)

variable {x : String} {pins : Nat → Option Value}

theorem safe_hoist : ∀ (es : List Expr) (k : Nat) (ρ : SEnv), Good x pins k ρ →
    Safe x pins k (hoist es ρ) fun k ρ => Good x pins k ρ
  | [], k, ρ, h => by
    unfold hoist
    safe_steps
  | e :: es, k, ρ, h => by
    have ih := safe_hoist es
    unfold hoist
    cases hoisted e with
    | none => exact ih k ρ h
    | some y => safe_steps

theorem safe_bindParams {w : World} : ∀ (as : List FnArg) (vs : List Value) (k : Nat) (ρ : SEnv), Good x pins k ρ →
    Safe x pins k (bindParams w as vs ρ) fun k ρ => Good x pins k ρ
  | [], _, k, ρ, h => by
    unfold bindParams
    safe_steps
  | a :: as, vs, k, ρ, h => by
    have ih := safe_bindParams (w := w) as
    unfold bindParams
    safe_steps

theorem safe_bindFields {w : World} {v : Value} : ∀ (xs : List String) (k : Nat) (ρ : SEnv), Good x pins k ρ →
    Safe x pins k (bindFields w v xs ρ) fun k ρ => Good x pins k ρ
  | [], k, ρ, h => by
    unfold bindFields
    safe_steps
  | a :: as, k, ρ, h => by
    have ih := safe_bindFields (w := w) (v := v) as
    unfold bindFields
    safe_steps

theorem safe_members {c : Value} : ∀ (es : List Expr), unsetMembers x es = true → ∀ (k : Nat) (ρ : SEnv), Good x pins k ρ →
    Safe x pins k (members c es ρ) fun _ _ => True
  | [], _, k, ρ, h => by
    unfold members
    safe_steps
  | e :: es, hu, k, ρ, h => by
    simp only [unsetMembers, Bool.and_eq_true] at hu
    have ih := safe_members (c := c) es hu.2
    cases e with
    | fnDecl y args ret body =>
      have hb := hu.1
      simp only [unsetMember] at hb
      unfold members
      cases memberForm y args with
      | none => exact safe_stuck
      | some form => cases form <;> safe_steps
    | opDecl op args ret body =>
      have hb := hu.1
      simp only [unsetMember] at hb
      unfold members
      safe_steps
    | _ => exact safe_stuck

theorem safe_classDecl {w : World} {y : String} {items : List Expr} {base : SEnv → S (Value × SEnv)} {k : Nat} {ρ : SEnv}
    (hy : (y != x) = true) (hi : unsetMembers x items = true)
    (hb : ∀ (k : Nat) (ρ : SEnv), Good x pins k ρ → Safe x pins k (base ρ) fun k p => Good x pins k p.2) (hρ : Good x pins k ρ) :
    Safe x pins k (classDecl w y items base ρ) fun _ _ => True := by
  unfold classDecl
  refine Safe.env (hb k ρ hρ) fun k' _ b ρ' hρ' => ?_
  refine Safe.loc fun k2 _ s hs => ?_
  have hg : Good x pins k2 (("super", s) :: ρ') := by good
  cases hl : List.lookup y (("super", s) :: ρ') with
  | none => exact safe_stuck
  | some l =>
    have hf := hg.lookup hy hl
    refine Safe.any safe_derive fun k3 _ c => ?_
    have hm := safe_members (pins := pins) (c := c) items hi
    safe_steps

theorem safe_iter {α : Type} {ρ : SEnv} {next : Option α} {body : α → S (Option α)} {k : Nat}
    (h : ∀ k', k ≤ k' → ∀ a, Safe x pins k' (body a) fun _ _ => True) :
    ∀ (n : Nat) (a : α), Safe x pins k (iter ρ next body n a) fun _ _ => True
  | 0, _ => safe_timeout
  | n + 1, a => by
    have ih := safe_iter (ρ := ρ) (next := next) h n
    constructor
    intro σ hσ hk
    obtain ⟨h1, h2, -⟩ := (h k (Nat.le_refl _) a).run σ hσ hk
    have again : ∀ a σ', (body a σ).2 = σ' → True := fun _ _ _ => trivial
    simp only [iter]
    rcases hb : body a σ with ⟨o, σ1⟩
    rw [hb] at h1 h2
    have go : ∀ a, Pinned x pins (iter ρ next body n a σ1).2 ∧ σ.store.length ≤ (iter ρ next body n a σ1).2.store.length ∧
        ∀ b, (iter ρ next body n a σ1).1 = .ok b → True := fun a => by
      obtain ⟨g1, g2, -⟩ := (ih a).run σ1 h1 (Nat.le_trans hk h2)
      exact ⟨g1, Nat.le_trans h2 g2, fun _ _ => trivial⟩
    have stop : ∀ o : Out Unit, Pinned x pins (o, σ1).2 ∧ σ.store.length ≤ (o, σ1).2.store.length ∧
        ∀ b, (o, σ1).1 = .ok b → True := fun o => ⟨h1, h2, fun _ _ => trivial⟩
    cases o with
    | ok r =>
      cases r with
      | none => exact stop _
      | some a => exact go a
    | jump j =>
      cases j with
      | brk ρ' =>
        dsimp only
        split <;> exact stop _
      | cont ρ' =>
        cases next with
        | none => exact stop _
        | some a =>
          dsimp only
          split
          · exact stop _
          · exact go a
      | _ => exact stop _
    | _ => exact stop _

theorem safe_block {es : List Expr} {t : Option Expr} {stmts : SEnv → S SEnv} {last : SEnv → S (Value × SEnv)} {k : Nat} {ρ : SEnv}
    (h1 : ∀ (k : Nat) (ρ : SEnv), Good x pins k ρ → Safe x pins k (stmts ρ) fun k ρ => Good x pins k ρ)
    (h2 : ∀ (k : Nat) (ρ : SEnv), Good x pins k ρ → Safe x pins k (last ρ) fun k p => Good x pins k p.2) (hρ : Good x pins k ρ) :
    Safe x pins k (block es t stmts last ρ) fun _ _ => True := by
  have h0 := safe_hoist (x := x) (pins := pins) (es ++ t.toList)
  unfold block
  safe_steps

/-- Calls and imports are safe. -/
structure SafeCalls (x : String) (pins : Nat → Option Value) (c : Calls) : Prop where
  call : ∀ (k : Nat) (f : Value) (vs : List Value), Safe x pins k (c.call f vs) fun _ _ => True
  load : ∀ (k : Nat) (p : String), Safe x pins k (c.load p) fun _ _ => True

section
variable {w : World} {call : Calls} (hc : SafeCalls x pins call)
include hc

theorem safe_construct {c : Nat} {o : Value} {vs : List Value} {k : Nat} :
    Safe x pins k (construct call c o vs) fun _ _ => True := by
  constructor
  intro σ hσ hk
  unfold construct
  split
  · exact (hc.call k _ _).run σ hσ hk
  · split
    · split <;> exact ⟨hσ, Nat.le_refl _, fun _ _ => trivial⟩
    · exact ⟨hσ, Nat.le_refl _, fun _ _ => trivial⟩

theorem safe_overloaded {y : String} {l r : Value} {k : Nat} : Safe x pins k (overloaded w call y l r) fun _ _ => True := by
  unfold overloaded
  refine Safe.any safe_fieldOf fun k' _ m => Safe.ite ?_ (hc.call _ _ _)
  constructor
  intro σ hσ hk
  cases h : σ.globals.get y with
  | none => exact ⟨hσ, Nat.le_refl _, fun _ _ => trivial⟩
  | some f => exact (hc.call k' f [l, r]).run σ hσ hk

theorem safe_binary {o : Opcode} {l r : Value} {k : Nat} : Safe x pins k (binary w call o l r) fun _ _ => True := by
  unfold binary
  cases binDecide w o l r with
  | call y => exact safe_overloaded hc
  | int i => exact safe_intResult
  | value v => exact safe_pure fun _ _ => trivial
  | divideByZero => exact safe_err
  | quotient l r =>
    dsimp only
    split
    · exact safe_pure fun _ _ => trivial
    · exact safe_abort
  | remainder l r =>
    dsimp only
    split
    · exact safe_pure fun _ _ => trivial
    · exact safe_abort

theorem safe_rangeRound {cmp : Opcode} {y : String} {stop v : Value} {ρ : SEnv} {body : SEnv → S (Value × SEnv)} {k : Nat}
    (hb : ∀ (k : Nat) (ρ : SEnv), Good x pins k ρ → Safe x pins k (body ρ) fun k p => Good x pins k p.2) (hρ : Good x pins k ρ) :
    Safe x pins k (rangeRound w call cmp y stop ρ body v) fun _ _ => True := by
  have h2 : ∀ o l r k, Safe x pins k (binary w call o l r) fun _ _ => True := fun _ _ _ _ => safe_binary hc
  unfold rangeRound
  safe_steps

theorem safe_iterRound {y : String} {next : Value} {ρ : SEnv} {body : SEnv → S (Value × SEnv)} {k : Nat}
    (hb : ∀ (k : Nat) (ρ : SEnv), Good x pins k ρ → Safe x pins k (body ρ) fun k p => Good x pins k p.2) (hρ : Good x pins k ρ) :
    Safe x pins k (iterRound w call y next ρ body) fun _ _ => True := by
  have h2 := hc.call
  unfold iterRound
  safe_steps

theorem safe_iterLoop {n : Nat} {y : String} {source : S (Value × SEnv)} {body : SEnv → S (Value × SEnv)} {k : Nat}
    (hs : Safe x pins k source fun k p => Good x pins k p.2)
    (hb : ∀ (k : Nat) (ρ : SEnv), Good x pins k ρ → Safe x pins k (body ρ) fun k p => Good x pins k p.2) :
    Safe x pins k (iterLoop w call n y source body) fun k p => Good x pins k p.2 := by
  have h2 := hc.call
  unfold iterLoop
  refine Safe.env hs fun k1 _ s ρ hρ => ?_
  refine Safe.any safe_fieldOf fun k2 _ f => ?_
  refine Safe.any (h2 _ _ _) fun k3 _ i => ?_
  refine Safe.any safe_fieldOf fun k4 _ next => ?_
  refine Safe.any (safe_iter (fun k5 _ _ => (safe_iterRound hc hb (hρ.mono (by omega))).operand) _ _) fun k6 _ _ => ?_
  safe_steps

variable {r : Role} {n : Nat}

set_option maxHeartbeats 4000000 in
mutual

theorem safe_eval : ∀ (e : Expr), unset x e = true → ∀ (inside : Bool) (k : Nat) (ρ : SEnv), Good x pins k ρ →
    Safe x pins k (eval w call r n inside e ρ) fun k p => Good x pins k p.2
  | .ident _, _, _, _, _, _ | .unit, _, _, _, _, _ | .null, _, _, _, _, _ | .bool _, _, _, _, _, _ | .int _, _, _, _, _, _
  | .float _, _, _, _, _, _ | .str _, _, _, _, _, _ | .break_, _, _, _, _, _ | .continue_, _, _, _, _, _
  | .superAccess .., _, _, _, _, _ => by
    simp only [eval]
    safe_steps
  | .anonFn _ _ b, h, _, _, _, _ => by
    simp only [unset] at h
    simp only [eval]
    safe_steps
  | .opDecl _ _ _ b, h, _, _, _, _ => by
    simp only [unset] at h
    simp only [eval]
    safe_steps
  | .fnDecl y _ _ _, h, _, k, ρ, hρ => by
    simp only [unset, Bool.and_eq_true] at h
    obtain ⟨hy, hb⟩ := h
    simp only [eval]
    cases hl : ρ.lookup y with
    | none => exact safe_stuck
    | some l =>
      have hf := hρ.lookup hy hl
      safe_steps
  | .classDecl y none items, h, _, k, ρ, hρ => by
    simp only [unset, unsetOpt, Bool.and_eq_true] at h
    simp only [eval]
    refine Safe.any (safe_classDecl h.1.1 h.2 (fun k ρ hρ => ?_) hρ) ?_
    · safe_steps
    · safe_steps
  | .classDecl y (some b) items, h, _, k, ρ, hρ => by
    simp only [unset, unsetOpt, Bool.and_eq_true] at h
    have h1 := safe_eval b h.1.2 false
    simp only [eval]
    refine Safe.any (safe_classDecl h.1.1 h.2 h1 hρ) ?_
    safe_steps
  | .object fs, h, _, _, _, _ => by
    have h1 := safe_evalFields fs h
    simp only [eval]
    safe_steps
  | .list es, h, _, _, _, _ => by
    have h1 := safe_evalAll es h
    simp only [eval]
    safe_steps
  | .assign op lhs rhs, h, _, _, ρ, hρ => by
    have hbin : ∀ o l r k, Safe x pins k (binary w call o l r) fun _ _ => True := fun _ _ _ _ => safe_binary hc
    cases lhs with
    | ident y =>
      simp only [unset, Bool.and_eq_true] at h
      have h1 := safe_eval rhs h.2
      simp only [eval]
      cases hl : ρ.lookup y with
      | none => exact safe_stuck
      | some l =>
        have hf := hρ.lookup h.1 hl
        cases updateOp op <;> safe_steps
    | field e f =>
      simp only [unset, Bool.and_eq_true] at h
      have h1 := safe_eval e h.1
      have h2 := safe_eval rhs h.2
      simp only [eval]
      cases updateOp op <;> safe_steps
    | index e i =>
      simp only [unset, Bool.and_eq_true] at h
      have h1 := safe_eval e h.1.1
      have h2 := safe_eval i h.1.2
      have h3 := safe_eval rhs h.2
      simp only [eval]
      cases updateOp op <;> safe_steps
    | _ =>
      simp only [eval]
      exact safe_stuck
  | .unary _ e, h, _, _, _, _ => by
    have h1 := safe_eval e h
    simp only [eval]
    safe_steps
  | .binary op a b, h, _, _, _, _ => by
    simp only [unset, Bool.and_eq_true] at h
    have hbin : ∀ o l r k, Safe x pins k (binary w call o l r) fun _ _ => True := fun _ _ _ _ => safe_binary hc
    have hcall := hc.call
    have h1 := safe_eval a h.1
    have h2 := safe_eval b h.2
    cases op <;> simp only [eval, strictOp] <;> safe_steps
  | .ifExpr a b e, h, _, _, _, _ => by
    simp only [unset, Bool.and_eq_true] at h
    have h1 := safe_eval a h.1.1
    have h2 := safe_eval b h.1.2
    have h3 := safe_evalOpt e h.2
    simp only [eval]
    safe_steps
  | .forLoop y e body, h, inside, k, ρ, hρ => by
    simp only [unset, Bool.and_eq_true] at h
    have h1 := safe_eval e h.1
    have h2 := safe_eval body h.2 false
    by_cases hb : ∃ op a b, e = .binary op a b
    · obtain ⟨op, a, b, rfl⟩ := hb
      have h' := h.1
      simp only [unset, Bool.and_eq_true] at h'
      have ha := safe_eval a h'.1
      have hb := safe_eval b h'.2
      simp only [eval]
      cases rangeOp op with
      | none => exact safe_iterLoop hc (h1 _ _ _ hρ) h2
      | some cmp =>
        refine Safe.env (hb _ _ _ hρ) fun k1 _ stop ρ1 hρ1 => ?_
        refine Safe.env (ha _ _ _ hρ1).operand fun k2 _ start ρ2 hρ2 => ?_
        refine Safe.any (safe_iter (fun k3 _ _ => (safe_rangeRound hc h2 (hρ2.mono (by omega))).noReturn) _ _) fun k4 _ _ => ?_
        safe_steps
    · have he : eval w call r n inside (.forLoop y e body) ρ =
          iterLoop w call n y (eval w call r n false e ρ) (eval w call r n false body) := by
        cases e with
        | binary op a b => exact absurd ⟨op, a, b, rfl⟩ hb
        | _ => simp only [eval]
      rw [he]
      exact safe_iterLoop hc (h1 _ _ _ hρ) h2
  | .loop b, h, _, k, ρ, hρ => by
    simp only [unset] at h
    cases b with
    | block es t =>
      simp only [unset, Bool.and_eq_true] at h
      have h1 := safe_evalStmts es h.1
      have h2 := safe_evalOpt t h.2
      simp only [eval]
      refine Safe.any (safe_iter (fun k1 _ _ => Safe.any (safe_block h1 h2 (hρ.mono (by omega))) fun _ _ _ => ?_) _ _) fun k2 _ _ => ?_
      · safe_steps
      · safe_steps
    | _ =>
      simp only [eval]
      exact safe_stuck
  | .whileLoop a b, h, _, k, ρ, hρ => by
    simp only [unset, Bool.and_eq_true] at h
    have h0 := safe_eval a h.1
    cases b with
    | block es t =>
      have h := h.2
      simp only [unset, Bool.and_eq_true] at h
      have h1 := safe_evalStmts es h.1
      have h2 := safe_evalOpt t h.2
      simp only [eval]
      refine Safe.guard (Safe.any (safe_iter (fun k1 _ _ => ?_) _ _) fun k2 _ _ => ?_)
      · refine Safe.env (h0 _ _ _ (hρ.mono (by omega))) fun k2 _ c ρ2 hρ2 => Safe.any safe_truth fun k3 _ t => Safe.ite ?_ ?_
        · refine Safe.any (safe_block h1 h2 (hρ2.mono (by omega))) fun _ _ _ => ?_
          safe_steps
        · safe_steps
      · safe_steps
    | _ =>
      simp only [eval]
      exact safe_stuck
  | .block es t, h, _, k, ρ, hρ => by
    simp only [unset, Bool.and_eq_true] at h
    have h1 := safe_evalStmts es h.1
    have h2 := safe_evalOpt t h.2
    simp only [eval]
    refine Safe.any (safe_block h1 h2 hρ) ?_
    safe_steps
  | .return_ none, _, _, _, _, _ => by
    simp only [eval]
    cases r <;> safe_steps
  | .return_ (some e), h, _, _, _, _ => by
    simp only [unset, unsetOpt] at h
    have h1 := safe_eval e h
    simp only [eval]
    cases r <;> safe_steps
  | .field e f, h, _, _, _, _ => by
    have h1 := safe_eval e h
    simp only [eval]
    safe_steps
  | .index e i, h, _, _, _, _ => by
    simp only [unset, Bool.and_eq_true] at h
    have h1 := safe_eval e h.1
    have h2 := safe_eval i h.2
    simp only [eval]
    safe_steps
  | .call e es, h, _, _, _, _ => by
    simp only [unset, Bool.and_eq_true] at h
    have hcall := hc.call
    have h1 := safe_eval e h.1
    have h2 := safe_evalAll es h.2
    simp only [eval]
    safe_steps
  | .superCall es, h, _, _, _, _ => by
    have h2 := safe_evalAll es h
    have hcon : ∀ c o vs k, Safe x pins k (construct call c o vs) fun _ _ => True := fun _ _ _ _ => safe_construct hc
    simp only [eval]
    safe_steps
  | .is e t, h, _, _, _, _ => by
    have h1 := safe_eval e h
    simp only [eval]
    safe_steps
  | .nullProp e, h, _, _, _, _ => by
    have h1 := safe_eval e h
    simp only [eval]
    safe_steps
  | .errProp e, h, _, _, _, _ => by
    have h1 := safe_eval e h
    simp only [eval]
    cases r <;> safe_steps
  | .varDecl (.singular y) _ e t, h, _, _, _, _ => by
    have h1 := safe_eval e h
    simp only [eval]
    safe_steps
  | .varDecl (.destructured xs) _ e t, h, _, _, _, _ => by
    have h1 := safe_eval e h
    have h2 : ∀ v k ρ, Good x pins k ρ → Safe x pins k (bindFields w v xs ρ) fun k ρ => Good x pins k ρ :=
      fun v => safe_bindFields xs
    simp only [eval]
    safe_steps
  | .importDecl none xs p, _, _, _, _, _ | .importDecl (some _) xs p, _, _, _, _, _ => by
    have h1 := hc.load
    have h2 : ∀ v k ρ, Good x pins k ρ → Safe x pins k (bindFields w v xs ρ) fun k ρ => Good x pins k ρ :=
      fun v => safe_bindFields xs
    simp only [eval]
    safe_steps
  | .exportDecl e, h, _, _, ρ, _ => by
    have h1 := safe_eval e h
    simp only [eval]
    cases ρ.lookup exports <;> cases exported e <;> safe_steps
termination_by e => sizeOf e

theorem safe_evalAll : ∀ (es : List Expr), unsetAll x es = true → ∀ (k : Nat) (ρ : SEnv), Good x pins k ρ →
    Safe x pins k (evalAll w call r n es ρ) fun k p => Good x pins k p.2
  | [], _, _, _, _ => by
    simp only [evalAll]
    safe_steps
  | e :: es, h, _, _, _ => by
    simp only [unsetAll, Bool.and_eq_true] at h
    have h1 := safe_eval e h.1
    have h2 := safe_evalAll es h.2
    simp only [evalAll]
    safe_steps
termination_by es => sizeOf es

theorem safe_evalFields : ∀ (fs : List (String × Expr)), unsetFields x fs = true → ∀ (o : Value) (k : Nat) (ρ : SEnv),
    Good x pins k ρ → Safe x pins k (evalFields w call r n o fs ρ) fun k ρ => Good x pins k ρ
  | [], _, _, _, _, _ => by
    simp only [evalFields]
    safe_steps
  | (_, e) :: fs, h, _, _, _, _ => by
    simp only [unsetFields, Bool.and_eq_true] at h
    have h1 := safe_eval e h.1
    have h2 := safe_evalFields fs h.2
    simp only [evalFields]
    safe_steps
termination_by fs => sizeOf fs

theorem safe_evalStmts : ∀ (es : List Expr), unsetAll x es = true → ∀ (k : Nat) (ρ : SEnv), Good x pins k ρ →
    Safe x pins k (evalStmts w call r n es ρ) fun k ρ => Good x pins k ρ
  | [], _, _, _, _ => by
    simp only [evalStmts]
    safe_steps
  | e :: es, h, _, _, _ => by
    simp only [unsetAll, Bool.and_eq_true] at h
    have h1 := safe_eval e h.1
    have h2 := safe_evalStmts es h.2
    simp only [evalStmts]
    safe_steps
termination_by es => sizeOf es

theorem safe_evalOpt : ∀ (e : Option Expr), unsetOpt x e = true → ∀ (k : Nat) (ρ : SEnv), Good x pins k ρ →
    Safe x pins k (evalOpt w call r n e ρ) fun k p => Good x pins k p.2
  | none, _, _, _, _ => by
    simp only [evalOpt]
    safe_steps
  | some e, h, _, _, _ => by
    have h1 := safe_eval e h
    simp only [evalOpt]
    safe_steps
termination_by e => sizeOf e

end

/-! ## Calls and imports -/

omit hc in
theorem safe_result {ρ : SEnv} {X : S Value} {k : Nat} (h : Safe x pins k X fun _ _ => True) :
    Safe x pins k (result ρ X) fun _ _ => True := by
  refine h.outcome (fun σ => ?_) fun _ _ _ => .inr fun _ _ => trivial
  unfold result
  rcases X σ with ⟨_ | ⟨_ | _ | _ | _ | _⟩ | _ | _ | _ | _, _⟩ <;> first | rfl | (dsimp only; split <;> rfl)

omit hc in
theorem safe_finish {cl : Closure} {v : Value} {ρ : SEnv} {k : Nat} : Safe x pins k (finish w cl v ρ) fun _ _ => True := by
  unfold finish
  split
  · refine Safe.guard ?_
    split
    · exact safe_readLoc
    · exact safe_stuck
  · safe_steps
  · safe_steps

omit hc in
theorem unset_body {b : Expr} (h : unset x b = true) : unsetAll x (bodyStmts b) = true ∧ unsetOpt x (bodyResult b) = true := by
  cases b with
  | block es t =>
    simp only [unset, Bool.and_eq_true] at h
    exact h
  | _ => exact ⟨rfl, h⟩

theorem safe_invoke {cl : Closure} {self : Value} {vs : List Value} {k : Nat} (hb : unset x cl.body = true)
    (he : Good x pins k cl.env) : Safe x pins k (invoke w call n cl self vs) fun _ _ => True := by
  obtain ⟨h1, h2⟩ := unset_body hb
  have g0 : Safe x pins k (bindArgs w cl self vs) fun k ρ => Good x pins k ρ := by
    have h := fun vs => safe_bindParams (x := x) (pins := pins) (w := w) cl.args vs
    unfold bindArgs
    cases cl.form <;> safe_steps
  have g1 := safe_evalStmts hc (w := w) (r := cl.role) (n := n) _ h1
  have g2 := safe_evalOpt hc (w := w) (r := cl.role) (n := n) _ h2
  have g3 := safe_hoist (x := x) (pins := pins) (bodyStmts cl.body ++ (bodyResult cl.body).toList)
  unfold invoke
  refine Safe.onlyEnv g0 fun k1 _ ρ1 hρ1 => Safe.onlyEnv (g3 _ _ hρ1) fun k2 _ ρ2 hρ2 => safe_result ?_
  exact Safe.onlyEnv (g1 _ _ hρ2) fun k3 _ ρ3 hρ3 => Safe.env (g2 _ _ hρ3) fun k4 _ v ρ4 _ => safe_finish

theorem safe_apply {known : Known} {f : Value} {vs : List Value} {k : Nat} :
    Safe x pins k (apply w known call n f vs) fun _ _ => True := by
  unfold apply
  rcases callTarget f with ⟨v, rc⟩
  cases v with
  | fnClosure b y i us =>
    cases us with
    | nil =>
      constructor
      intro σ hσ hk
      cases hcl : σ.fns[i]? with
      | none =>
        simp only [hcl]
        exact ⟨hσ, Nat.le_refl _, fun _ _ => trivial⟩
      | some cl =>
        simp only [hcl]
        obtain ⟨h1, h2⟩ := hσ.fns cl (List.mem_of_getElem? hcl)
        exact (safe_invoke hc h1 h2).run σ hσ (Nat.le_refl _)
    | cons => exact safe_stuck
  | fnScript => exact safe_stuck
  | cls c => exact Safe.any safe_onHeap fun _ _ _ => safe_construct hc
  | fnNative i => exact safe_runNative
  | _ => exact safe_err

theorem safe_module {root : Expr} {o : Value} {k : Nat} (h : unset x root = true) :
    Safe x pins k (module w call n root o) fun _ _ => True := by
  have h1 := safe_eval hc (w := w) (r := .plain none) (n := n) root h
  have h2 : ∀ k, Good x pins k [] := fun _ => Good.nil
  unfold module
  refine Safe.operand (Safe.loc fun k1 _ l hl => Safe.env (h1 _ _ _ ((h2 _).cons hl)) fun _ _ _ _ _ => safe_readLoc)

theorem safe_load {src : Sources} {p : String} {k : Nat} (h : ∀ p root, src p = some root → unset x root = true) :
    Safe x pins k (load w src call n p) fun _ _ => True := by
  constructor
  intro σ hσ hk
  unfold load
  split
  · exact ⟨hσ, Nat.le_refl _, fun _ _ => trivial⟩
  · dsimp only
    have hσ' : Pinned x pins { σ with
        heap := (σ.heap.newObject w.moduleClass).2, modules := σ.modules.insert p (σ.heap.newObject w.moduleClass).1 } :=
      ⟨hσ.held, hσ.fns⟩
    split
    · exact ⟨hσ', Nat.le_refl _, fun _ _ => trivial⟩
    · split
      · rename_i root hr
        exact (safe_module hc (h p root hr)).run _ hσ' hk
      · exact ⟨hσ', Nat.le_refl _, fun _ _ => trivial⟩

end

theorem safe_calls {w : World} {known : Known} {src : Sources} (h : ∀ p root, src p = some root → unset x root = true) :
    ∀ n, SafeCalls x pins (calls w known src n)
  | 0 => ⟨fun _ _ _ => safe_timeout, fun _ _ => safe_timeout⟩
  | n + 1 => ⟨fun _ _ _ => safe_apply (safe_calls h n), fun _ _ => safe_load (safe_calls h n) h⟩

end Src

end Dice
