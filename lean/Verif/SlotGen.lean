import Verif.BalanceProps
import Verif.SimStatic

/-!
# Code that leaves a variable alone

An immutable variable is stored to once, by its declaration.  `avoids` describes source in which no inner function
uses a name and no class is declared under it; the code of such source neither stores to the slot of the immutable
variable of that name nor captures it (`Gen.spares`).
-/

namespace Dice

open ScopeStack

/-! ## Source that avoids a name -/

/-- The name is another one, if uses count. -/
def otherName (x : String) (deep : Bool) (y : String) : Bool := !(deep && y == x)

/-- The types in the signature of a function have other names. -/
def avoidsTypes (x : String) (args : List FnArg) (ret : Option TypeAnn) : Bool :=
  (args.all fun a => a.type_.all fun t => otherName x true t.name) && ret.all fun t => otherName x true t.name

mutual

/-- No class `x` is declared outside of inner functions, and no inner function uses the name `x`.  With `deep` set, the
name is not used at all. -/
def avoids (x : String) (deep : Bool) : Expr → Bool
  | .ident y => otherName x deep y
  | .unit | .null | .bool _ | .int _ | .float _ | .str _ => true
  | .anonFn args ret body => avoidsTypes x args ret && avoids x true body
  | .object fs => avoidsFields x deep fs
  | .list es => avoidsAll x deep es
  | .assign _ l r => avoids x deep l && avoids x deep r
  | .unary _ e => avoids x deep e
  | .binary _ a b => avoids x deep a && avoids x deep b
  | .is e t => avoids x deep e && otherName x deep t.name
  | .varDecl _ _ e t => avoids x deep e && t.all fun t => otherName x deep t.name
  | .fnDecl _ args ret body => avoidsTypes x args ret && avoids x true body
  | .opDecl _ args ret body => avoidsTypes x args ret && avoids x true body
  | .classDecl name base items =>
    name != x && otherName x deep nameAny && avoidsOpt x deep base && avoidsAll x deep items
  | .importDecl .. => true
  | .exportDecl e => avoids x deep e
  | .ifExpr a b e => avoids x deep a && avoids x deep b && avoidsOpt x deep e
  | .loop body => avoids x deep body
  | .whileLoop a body => avoids x deep a && avoids x deep body
  | .forLoop _ source body => avoids x deep source && avoids x deep body
  | .break_ | .continue_ => true
  | .block es t => avoidsAll x deep es && avoidsOpt x deep t
  | .return_ e => avoidsOpt x deep e
  | .nullProp e => avoids x deep e
  | .errProp e => avoids x deep e
  | .field e _ => avoids x deep e
  | .superAccess _ c => otherName x deep (c.getD nameSuper) && otherName x deep nameSelf
  | .call e es => avoids x deep e && avoidsAll x deep es
  | .superCall es => otherName x deep nameSuper && avoidsAll x deep es
  | .index e i => avoids x deep e && avoids x deep i

def avoidsOpt (x : String) (deep : Bool) : Option Expr → Bool
  | none => true
  | some e => avoids x deep e

def avoidsAll (x : String) (deep : Bool) : List Expr → Bool
  | [] => true
  | e :: es => avoids x deep e && avoidsAll x deep es

def avoidsFields (x : String) (deep : Bool) : List (String × Expr) → Bool
  | [] => true
  | (_, e) :: fs => avoids x deep e && avoidsFields x deep fs

end

/-- The same for the pieces that are compiled as a unit. -/
def Node.avoids (x : String) (deep : Bool) : Node → Bool
  | .expr e | .link e => Dice.avoids x deep e
  | .seq es t | .block _ es t => avoidsAll x deep es && avoidsOpt x deep t
  | .fnBody _ ps es t => avoidsTypes x ps none && (avoidsAll x deep es && avoidsOpt x deep t)
  | .els t => avoidsOpt x deep t
  | .items es | .args es => avoidsAll x deep es
  | .fields fs => avoidsFields x deep fs
  | .base b => otherName x deep nameAny && avoidsOpt x deep b
  | .cls _ ms _ => avoidsAll x deep ms

theorem avoids_body {x : String} {deep : Bool} {body : Expr} (h : avoids x deep body = true) :
    avoidsAll x deep (bodyExprs body) = true ∧ avoidsOpt x deep (bodyTrailing body) = true := by
  unfold bodyExprs bodyTrailing
  split
  · simpa [avoids] using h
  · exact ⟨rfl, by simpa [avoidsOpt] using h⟩

/-! ## Variables of enclosing functions -/

/-- The variables with this name stay as they are, marks included. -/
inductive KeptIn (x : String) : Env → Env → Prop where
  | nil : KeptIn x [] []
  | cons {c c' r r'} (h : ∀ v ∈ visible c.scopes.stack, v.name = x → v ∈ visible c'.scopes.stack) (hr : KeptIn x r r') :
      KeptIn x (c :: r) (c' :: r')

theorem KeptIn.refl (x : String) (g : Env) : KeptIn x g g := by
  induction g with
  | nil => exact .nil
  | cons c r ih => exact .cons (fun _ h _ => h) ih

theorem KeptIn.trans {x : String} {a b c : Env} (h1 : KeptIn x a b) (h2 : KeptIn x b c) : KeptIn x a c := by
  induction h1 generalizing c with
  | nil => exact h2
  | cons h hr ih =>
    cases h2 with
    | cons h' hr' => exact .cons (fun v hv hx => h' v (h v hv hx) hx) (ih hr')

theorem KeptIn.tail {x : String} {g g' : Env} (h : KeptIn x g g') : KeptIn x g.tail g'.tail := by
  cases h with
  | nil => exact .nil
  | cons _ h => exact h

/-- Changing the variable a name stands for leaves the others alone. -/
theorem modifyScopes_others (y : String) (f : ScopeVar → ScopeVar) (cs : List ScopeContext) {v u : ScopeVar}
    (hu : (visible cs).find? (fun v => v.name == y) = some u) (hv : v ∈ visible cs) (hne : v ≠ u) :
    v ∈ visible (modifyScopes y f cs) := by
  have hmod : ∀ vs : List ScopeVar, v ∈ vs → (∀ u, vs.find? (fun v => v.name == y) = some u → v ≠ u) →
      v ∈ modifyVars y f vs := by
    intro vs
    induction vs with
    | nil => intro h; cases h
    | cons w ws ih =>
      intro h hn
      unfold modifyVars
      rw [List.find?_cons] at hn
      split
      · rename_i hw
        rw [hw] at hn
        rcases List.mem_cons.1 h with rfl | h
        · exact absurd rfl (hn _ rfl)
        · exact List.mem_cons_of_mem _ h
      · rename_i hw
        rw [Bool.not_eq_true] at hw
        rw [hw] at hn
        rcases List.mem_cons.1 h with rfl | h
        · exact List.mem_cons_self
        · exact List.mem_cons_of_mem _ (ih h hn)
  induction cs with
  | nil => simp [visible] at hv
  | cons c cs ih =>
    simp only [visible, List.flatMap_cons, List.mem_append, List.find?_append] at hv hu
    unfold modifyScopes
    split
    · rename_i ha
      simp only [visible, List.flatMap_cons, List.mem_append]
      rcases hv with hv | hv
      · refine .inl (hmod _ hv fun u' hu' => ?_)
        rw [hu'] at hu
        simp only [Option.some_or, Option.some.injEq] at hu
        rw [hu]; exact hne
      · exact .inr hv
    · rename_i ha
      have hn : c.variables.find? (fun v => v.name == y) = none := by
        rw [List.find?_eq_none]
        intro w hw he
        exact ha (List.any_eq_true.2 ⟨w, hw, he⟩)
      rw [hn, Option.none_or] at hu
      simp only [visible, List.flatMap_cons, List.mem_append]
      rcases hv with hv | hv
      · exact .inl hv
      · exact .inr (ih hu hv)

theorem modifyLocal_named {x y : String} (hy : y ≠ x) (f : ScopeVar → ScopeVar) (s : ScopeStack) {v : ScopeVar}
    (hv : v ∈ visible s.stack) (hx : v.name = x) : v ∈ visible (s.modifyLocal y f).stack := by
  cases hu : (visible s.stack).find? (fun v => v.name == y) with
  | some u =>
    refine modifyScopes_others y f s.stack hu hv ?_
    rintro rfl
    have := List.find?_some hu
    rw [hx] at this
    exact hy (beq_iff_eq.1 this).symm
  | none =>
    have : modifyScopes y f s.stack = s.stack := by
      generalize s.stack = cs at hu
      induction cs with
      | nil => rfl
      | cons c cs ih =>
        simp only [visible, List.flatMap_cons, List.find?_append, Option.or_eq_none_iff] at hu
        unfold modifyScopes
        split
        · rename_i ha
          obtain ⟨w, hw, he⟩ := List.any_eq_true.1 ha
          exact absurd he (List.find?_eq_none.1 hu.1 w hw)
        · rw [ih hu.2]
    show v ∈ visible (modifyScopes y f s.stack)
    rw [this]; exact hv

theorem resolve_kept {x y : String} (hy : y ≠ x) (st : List Ctx) (i : Nat) (st' : List Ctx)
    (h : resolveUpvalue y st = some (i, st')) : KeptIn x st st' := by
  induction st generalizing i st' with
  | nil => cases h
  | cons cur rest ih =>
    cases rest with
    | nil => cases h
    | cons parent rest =>
      unfold resolveUpvalue at h
      cases hl : parent.scopes.local? y with
      | some v =>
        rw [hl] at h
        simp only at h
        cases h
        refine .cons (fun v hv _ => ?_) (.cons (fun v hv hx => ?_) (.refl _ _))
        · rw [addUpvalue_scopes]; exact hv
        · exact modifyLocal_named hy _ _ hv hx
      | none =>
        rw [hl] at h
        simp only at h
        cases hrec : resolveUpvalue y (parent :: rest) with
        | none => rw [hrec] at h; cases h
        | some r =>
          obtain ⟨o, pr⟩ := r
          rw [hrec] at h
          have hk := ih _ _ hrec
          obtain ⟨c, r, c', r', h1, rfl, h3, h4, h5⟩ := resolve_outer y _ _ _ hrec
          simp only at h
          cases h
          refine .cons (fun v hv _ => ?_) hk
          rw [addUpvalue_scopes]; exact hv

section
variable {x : String} {g g' : Env}

theorem otherName_ne {deep : Bool} {y : String} (hd : deep = true) (h : otherName x deep y = true) : y ≠ x := by
  subst hd
  simpa [otherName] using h

theorem IdentGen.kept {y : String} {i : Instr} (h : IdentGen g y i g') (hy : y ≠ x) : KeptIn x g.tail g'.tail := by
  cases h with
  | «local» => exact .refl _ _
  | captured _ hr => exact (resolve_kept hy _ _ _ hr).tail
  | global => exact .refl _ _

theorem TypeGen.kept {slot : Nat} {t : Option TypeAnn} {c : Code} (h : TypeGen g slot t c g') (ht : ∀ a, t = Option.some a → a.name ≠ x) :
    KeptIn x g.tail g'.tail := by
  cases h with
  | none => exact .refl _ _
  | some h => exact h.kept (ht _ rfl)

/-- The result type of the innermost function has another name. -/
def Env.ResultAvoids (x : String) (g : Env) : Prop := ∀ k t, g.kind = some k → k.returnType = some t → t.name ≠ x

theorem ReturnGen.kept {c : Code} (h : ReturnGen g c g') (hk : g.ResultAvoids x) : KeptIn x g.tail g'.tail := by
  cases h with
  | plain => exact .refl _ _
  | typed hk' ht h => exact h.kept (hk _ _ hk' ht)

theorem Env.ResultAvoids.step (h : g.ResultAvoids x) (hk : g'.kinds = g.kinds) : g'.ResultAvoids x := by
  intro k t hk' ht
  rw [kind_kinds, hk, ← kind_kinds] at hk'
  exact h k t hk' ht

theorem pushScope_tail {k e} (h : g.pushScope k e = some g') : g'.tail = g.tail := by
  match g, h with
  | c :: rest, h => cases h; rfl

theorem popScope_tail {vs} (h : g.popScope = some (vs, g')) : g'.tail = g.tail := by
  obtain ⟨c, rest, top, st, rfl, hst, rfl, rfl⟩ := popScope_split h
  rfl

theorem addLocal_tail {y st slot} (h : g.addLocal y st = some (slot, g')) : g'.tail = g.tail := by
  match g, h with
  | c :: rest, h =>
    unfold Env.addLocal at h
    simp only at h
    split at h
    · cases h
    · cases h; rfl

theorem setState_tail (y st) : (g.setState y st).tail = g.tail := by cases g <;> rfl

theorem setTemps_tail (n : Nat) : (g.setTemps n).tail = g.tail := by cases g <;> rfl

theorem setCallDepth_tail {d} (h : g.setCallDepth d = some g') : g'.tail = g.tail := by
  obtain ⟨c, rest, top, st, rfl, hst, rfl⟩ := setCallDepth_split h
  rfl

theorem addLocals_tail {xs : List String} {ls : List (String × Nat)} (h : g.addLocals xs = some (ls, g')) : g'.tail = g.tail := by
  induction xs generalizing ls g with
  | nil => cases h; rfl
  | cons x xs ih =>
    unfold Env.addLocals at h
    split at h
    · cases h
    · rename_i hl
      split at h
      · cases h
      · rename_i hr
        cases h
        exact (ih hr).trans (addLocal_tail hl)

theorem scanDecl_tail (e : Expr) (h : scanDecl e g = some g') : g'.tail = g.tail := by
  cases e with
  | fnDecl =>
    simp only [Dice.scanDecl, Option.map_eq_some_iff] at h
    obtain ⟨⟨s, g1⟩, hl, rfl⟩ := h
    exact addLocal_tail hl
  | classDecl =>
    simp only [Dice.scanDecl, Option.map_eq_some_iff] at h
    obtain ⟨⟨s, g1⟩, hl, rfl⟩ := h
    exact addLocal_tail hl
  | exportDecl e => exact scanDecl_tail e (by simpa only [Dice.scanDecl] using h)
  | _ => simp only [Dice.scanDecl] at h; cases h; rfl

theorem scanDecls_tail {es : List Expr} (h : scanDecls es g = some g') : g'.tail = g.tail := by
  induction es generalizing g with
  | nil => cases h; rfl
  | cons e es ih =>
    unfold Dice.scanDecls at h
    split at h
    · cases h
    · rename_i hd
      exact (ih h).trans (scanDecl_tail e hd)

theorem KeptIn.of_eq (h : g'.tail = g.tail) : KeptIn x g.tail g'.tail := h ▸ .refl _ _

theorem ParamsGen.kept {args : List FnArg} {c : Code} (h : ParamsGen g args c g')
    (ha : ∀ a ∈ args, ∀ t, a.type_ = some t → t.name ≠ x) : KeptIn x g.tail g'.tail := by
  induction h with
  | nil => exact .refl _ _
  | cons hl ht _ ih =>
    refine (KeptIn.of_eq (addLocal_tail hl)).trans ((ht.kept (ha _ List.mem_cons_self)).trans
      (ih fun a h => ha a (List.mem_cons_of_mem _ h)))

theorem ArgsGen.kept {k : FnKind} {args : List FnArg} {c : Code} (h : ArgsGen g k args c g')
    (ha : ∀ a ∈ args, ∀ t, a.type_ = some t → t.name ≠ x) : KeptIn x g.tail g'.tail := by
  cases h with
  | noReceiver _ hl hp => exact (KeptIn.of_eq (addLocal_tail hl)).trans (hp.kept ha)
  | receiver _ hp => exact hp.kept ha

theorem FnEndGen.kept {k : FnKind} {c : Code} (h : FnEndGen g k c g') (hk : g.ResultAvoids x) : KeptIn x g.tail g'.tail := by
  cases h with
  | constructor => exact .refl _ _
  | other _ h => exact h.kept hk

theorem avoidsTypes_args {args : List FnArg} {ret : Option TypeAnn} (h : avoidsTypes x args ret = true) :
    (∀ a ∈ args, ∀ t, a.type_ = some t → t.name ≠ x) ∧ ∀ t, ret = some t → t.name ≠ x := by
  simp only [avoidsTypes, Bool.and_eq_true, List.all_eq_true] at h
  refine ⟨fun a ha t ht => ?_, ?_⟩
  · have := h.1 a ha
    rw [ht] at this
    exact otherName_ne rfl this
  · rintro t rfl
    exact otherName_ne rfl h.2

theorem avoidsTypes_none {args : List FnArg} {ret : Option TypeAnn} (h : avoidsTypes x args ret = true) :
    avoidsTypes x args none = true := by
  simp only [avoidsTypes, Bool.and_eq_true] at h ⊢
  exact ⟨h.1, rfl⟩

end

/-- Syntax that does not use a name does not capture the variables of that name. -/
theorem Gen.kept {x : String} {g g' : Env} {nd : Node} {c : Code} (h : Gen g nd c g') (ha : nd.avoids x true = true)
    (hk : g.ResultAvoids x) : KeptIn x g.tail g'.tail := by
  have ne : ∀ {y : String}, otherName x true y = true → y ≠ x := otherName_ne rfl
  have step : ∀ {g g' : Env} {nd : Node} {c : Code}, Gen g nd c g' → g.ResultAvoids x → g'.ResultAvoids x :=
    fun h hk => hk.step (h.rel kindsRel)
  have fn : ∀ {g g' : Env} {k : CompilerKind} {fn : Ctx}, KeptIn x (g.pushFn k).tail (fn :: g' : Env).tail → KeptIn x g.tail g'.tail :=
    fun h => KeptIn.tail h
  have body : ∀ {k : FnKind} {args : List FnArg} {ret : Option TypeAnn} {body : Expr}, avoidsTypes x args ret = true →
      Dice.avoids x true body = true → (Node.fnBody k args (bodyExprs body) (bodyTrailing body)).avoids x true = true := by
    intro k args ret body h1 h2
    simp only [Node.avoids, Bool.and_eq_true]
    exact ⟨avoidsTypes_none h1, avoids_body h2⟩
  have result : ∀ {g : Env} {args : List FnArg} {ret : Option TypeAnn} {k : CompilerKind}, avoidsTypes x args ret = true →
      (∀ t, k.returnType = some t → ret = some t) → (g.pushFn k).ResultAvoids x := by
    intro g args ret k h1 h2 k' t hk' ht
    cases hk'
    exact (avoidsTypes_args h1).2 t (h2 t ht)
  have fnk : ∀ {ret : Option TypeAnn} t, (CompilerKind.function ret).returnType = some t → ret = some t := by
    intro ret t h; cases ret <;> simpa [CompilerKind.returnType] using h
  have mk : ∀ {ret : Option TypeAnn} t, (CompilerKind.method ret).returnType = some t → ret = some t := by
    intro ret t h; cases ret <;> simpa [CompilerKind.returnType] using h
  induction h with
  | ident h => exact h.kept (ne (by simpa [Node.avoids, Dice.avoids] using ha))
  | unit | null | bool | int | float | str | break_ | continue_ | elsNone | itemsNil | argsNil | fieldsNil | clsNil =>
    exact .refl _ _
  | anonFn hb _ ih | opDecl _ hb _ ih =>
    simp only [Node.avoids, Dice.avoids, Bool.and_eq_true] at ha
    exact fn (ih (body ha.1 ha.2) (result ha.1 fnk))
  | object _ ih | list _ ih | unary _ ih | exportDecl _ _ _ _ _ _ ih | nullProp _ ih | field _ ih =>
    exact ih (by simpa [Node.avoids, Dice.avoids] using ha) hk
  | assignLocal _ _ _ ih | updateLocal _ _ _ _ ih =>
    simp only [Node.avoids, Dice.avoids, Bool.and_eq_true] at ha
    exact ih ha.2 hk
  | assignCaptured _ hr _ _ _ ih | updateCaptured _ hr _ _ _ _ ih =>
    simp only [Node.avoids, Dice.avoids, Bool.and_eq_true] at ha
    exact (resolve_kept (ne ha.1) _ _ _ hr).tail.trans (ih ha.2 (hk.step (kindsRel.resolve hr)))
  | assignField h1 _ ih1 ih2 | updateField _ h1 _ ih1 ih2 | and h1 _ ih1 ih2 | or h1 _ ih1 ih2 | coalesce h1 _ ih1 ih2
  | binary _ h1 _ ih1 ih2 =>
    simp only [Node.avoids, Dice.avoids, Bool.and_eq_true] at ha
    exact (ih1 ha.1 hk).trans (ih2 ha.2 (step h1 hk))
  | pipeline h1 _ ih1 ih2 =>
    simp only [Node.avoids, Dice.avoids, Bool.and_eq_true] at ha
    exact (ih1 ha.2 hk).trans (ih2 ha.1 (step h1 hk))
  | assignIndex h1 h2 _ ih1 ih2 ih3 | updateIndex _ h1 h2 _ ih1 ih2 ih3 | ifExpr h1 h2 _ ih1 ih2 ih3 =>
    simp only [Node.avoids, Dice.avoids, Bool.and_eq_true] at ha
    exact (ih1 ha.1.1 hk).trans ((ih2 ha.1.2 (step h1 hk)).trans (ih3 ha.2 (step h2 (step h1 hk))))
  | «is» _ _ ht ih =>
    simp only [Node.avoids, Dice.avoids, Bool.and_eq_true] at ha
    exact (ih ha.1 hk).trans (ht.kept (ne ha.2))
  | isNullable _ h1 _ ht ih1 ih2 =>
    simp only [Node.avoids, Dice.avoids, Bool.and_eq_true] at ha
    exact (ih1 ha.1 hk).trans ((ih2 ha.1 (step h1 hk)).trans (ht.kept (ne ha.2)))
  | varDecl _ hl ht ih =>
    simp only [Node.avoids, Dice.avoids, Bool.and_eq_true] at ha
    refine (ih ha.1 hk).trans ((KeptIn.of_eq (addLocal_tail hl)).trans (ht.kept ?_))
    rintro a rfl
    exact ne ha.2
  | varDecls _ hl ih =>
    simp only [Node.avoids, Dice.avoids, Bool.and_eq_true] at ha
    exact (ih ha.1 hk).trans (.of_eq (addLocals_tail hl))
  | fnDecl _ hb _ _ _ ih =>
    simp only [Node.avoids, Dice.avoids, Bool.and_eq_true] at ha
    exact (fn (ih (body ha.1 ha.2) (result ha.1 fnk))).trans (.of_eq (setState_tail _ _))
  | classDecl h0 hb hsup _ _ hg hi hp ihb ihi =>
    simp only [Node.avoids, Dice.avoids, Bool.and_eq_true] at ha
    have k1 := hk.step (kindsRel.pushScope h0)
    have k3 := (step hb k1).step (kindsRel.addLocal hsup)
    refine (KeptIn.of_eq (pushScope_tail h0)).trans ((ihb (by simp only [Node.avoids, Bool.and_eq_true]; exact ⟨ha.1.1.2, ha.1.2⟩) k1).trans
      ((KeptIn.of_eq (addLocal_tail hsup)).trans (.trans ?_ ((ihi ha.2 ?_).trans (.of_eq (popScope_tail hp))))))
    · rw [hg]
      split
      · exact .of_eq (setState_tail _ _)
      · exact .refl _ _
    · rw [hg]
      split
      · exact k3.step (kindsRel.setState _ _ _)
      · exact k3
  | importItems hl => exact .of_eq (addLocals_tail hl)
  | importModule hl hm => exact (KeptIn.of_eq (addLocals_tail hl)).trans (.of_eq (addLocal_tail hm))
  | loop h0 _ hp ih =>
    simp only [Node.avoids, Dice.avoids] at ha
    exact (KeptIn.of_eq (pushScope_tail h0)).trans ((ih ha (hk.step (kindsRel.pushScope h0))).trans (.of_eq (popScope_tail hp)))
  | whileLoop h0 h1 _ hp ih1 ih2 =>
    simp only [Node.avoids, Dice.avoids, Bool.and_eq_true] at ha ih2
    have k1 := hk.step (kindsRel.pushScope h0)
    exact (KeptIn.of_eq (pushScope_tail h0)).trans ((ih1 ha.1 k1).trans ((ih2 ha.2 (step h1 k1)).trans (.of_eq (popScope_tail hp))))
  | rangeLoop _ h1 h2 h0 hl _ hp ih1 ih2 ih3 =>
    simp only [Node.avoids, Dice.avoids, Bool.and_eq_true] at ha
    have k2 := step h2 (step h1 hk)
    exact (ih1 ha.1.2 hk).trans ((ih2 ha.1.1 (step h1 hk)).trans ((KeptIn.of_eq (pushScope_tail h0)).trans
      ((KeptIn.of_eq (addLocal_tail hl)).trans ((ih3 ha.2 ((k2.step (kindsRel.pushScope h0)).step (kindsRel.addLocal hl))).trans
        (.of_eq (popScope_tail hp))))))
  | forLoop _ h1 h0 hl _ hp ih1 ih2 =>
    simp only [Node.avoids, Dice.avoids, Bool.and_eq_true] at ha
    exact (ih1 ha.1 hk).trans ((KeptIn.of_eq (pushScope_tail h0)).trans ((KeptIn.of_eq (addLocal_tail hl)).trans
      ((ih2 ha.2 (((step h1 hk).step (kindsRel.pushScope h0)).step (kindsRel.addLocal hl))).trans (.of_eq (popScope_tail hp)))))
  | blockExpr _ ih => exact ih (by simpa [Node.avoids, Dice.avoids] using ha) hk
  | returnValue _ _ h hr ih =>
    exact (ih (by simpa [Node.avoids, Dice.avoids, avoidsOpt] using ha) hk).trans (hr.kept (step h hk))
  | returnUnit _ _ hr => exact hr.kept hk
  | returnSelf _ _ hr => exact hr.kept hk
  | chain _ _ h0 _ _ h1 ih =>
    exact (KeptIn.of_eq (setCallDepth_tail h0)).trans ((ih ha (hk.step (kindsRel.setCallDepth h0))).trans (.of_eq (setCallDepth_tail h1)))
  | errProp _ _ h hr ih =>
    exact (ih (by simpa [Node.avoids, Dice.avoids] using ha) hk).trans (hr.kept (step h hk))
  | superAccess _ _ h1 h2 =>
    simp only [Node.avoids, Dice.avoids, Bool.and_eq_true] at ha
    exact (h1.kept (ne ha.1)).trans (h2.kept (ne ha.2))
  | call h1 _ hg ih1 ih2 =>
    simp only [Node.avoids, Dice.avoids, Bool.and_eq_true] at ha
    subst hg
    exact (ih1 ha.1 hk).trans ((ih2 ha.2 (step h1 hk)).trans (.of_eq (setTemps_tail _)))
  | superCall _ _ hi ih =>
    simp only [Node.avoids, Dice.avoids, Bool.and_eq_true] at ha
    exact (ih ha.2 hk).trans ((KeptIn.of_eq (setTemps_tail _)).trans (hi.kept (ne ha.1)))
  | index h1 _ h0 _ h3 hg ih1 ih2 =>
    simp only [Node.avoids, Dice.avoids, Bool.and_eq_true] at ha
    subst hg
    exact (ih1 ha.1 hk).trans ((KeptIn.of_eq (setCallDepth_tail h0)).trans ((KeptIn.of_eq (setTemps_tail _)).trans
      ((ih2 ha.2 (((step h1 hk).step (kindsRel.setCallDepth h0)).step (kindsRel.setTemps _ _))).trans
        ((KeptIn.of_eq (setTemps_tail _)).trans (.of_eq (setCallDepth_tail h3))))))
  | seqNil _ ih => exact ih (by simpa [Node.avoids, avoidsAll] using ha) hk
  | seqCons h1 _ ih1 ih2 =>
    simp only [Node.avoids, avoidsAll, Bool.and_eq_true] at ha ih2
    exact (ih1 ha.1.1 hk).trans (ih2 ⟨ha.1.2, ha.2⟩ (step h1 hk))
  | elsSome _ ih => exact ih (by simpa [Node.avoids, avoidsOpt] using ha) hk
  | itemsCons h1 _ ih1 ih2 =>
    simp only [Node.avoids, avoidsAll, Bool.and_eq_true] at ha ih2
    exact (ih1 ha.1 hk).trans (ih2 ha.2 (step h1 hk))
  | argsCons hd h0 h1 h2 _ ih1 ih2 =>
    simp only [Node.avoids, avoidsAll, Bool.and_eq_true] at ha ih2
    have k1 := fun n => (hk.step (kindsRel.setCallDepth h0)).step (kindsRel.setTemps _ n)
    exact (KeptIn.of_eq (setCallDepth_tail h0)).trans ((KeptIn.of_eq (setTemps_tail _)).trans ((ih1 ha.1 (k1 _)).trans
      ((KeptIn.of_eq (setCallDepth_tail h2)).trans (ih2 ha.2 ((step h1 (k1 _)).step (kindsRel.setCallDepth h2))))))
  | fieldsCons h1 _ ih1 ih2 =>
    simp only [Node.avoids, avoidsFields, Bool.and_eq_true] at ha ih2
    exact (ih1 ha.1 hk).trans (ih2 ha.2 (step h1 hk))
  | baseSome _ ih =>
    simp only [Node.avoids, avoidsOpt, Bool.and_eq_true] at ha
    exact ih ha.2 hk
  | baseNone h =>
    simp only [Node.avoids, avoidsOpt, Bool.and_eq_true] at ha
    exact h.kept (ne ha.1)
  | @clsFn g g1 g' k slot name args ret body' rest c1 c2 fk fn' bc id hcf hr _ hb _ _ ih ih2 =>
    simp only [Node.avoids, avoidsAll, Dice.avoids, Bool.and_eq_true] at ha ih2
    refine (fn (ih (body ha.1.1 ha.1.2) (result ha.1.1 ?_))).trans (ih2 ha.2 (hk.step (kindsRel.fn (hb.rel kindsRel))))
    intro t ht
    cases fk <;> simp only [fnCompilerKind] at ht
    all_goals first | exact fnk t ht | exact mk t ht | cases ht
  | @clsOp g g1 g' k slot op args ret body' rest c1 c2 a fn' bc id _ _ _ hb _ _ ih ih2 =>
    simp only [Node.avoids, avoidsAll, Dice.avoids, Bool.and_eq_true] at ha ih2
    exact (fn (ih (body ha.1.1 ha.1.2) (result ha.1.1 mk))).trans (ih2 ha.2 (hk.step (kindsRel.fn (hb.rel kindsRel))))
  | block h0 hs _ hp ih =>
    have hs : scanDecls _ _ = some _ := hs
    exact (KeptIn.of_eq (pushScope_tail h0)).trans ((KeptIn.of_eq (scanDecls_tail hs)).trans
      ((ih ha ((hk.step (kindsRel.pushScope h0)).step (kindsRel.scanDecls hs))).trans (.of_eq (popScope_tail hp))))
  | fnBody _ h0 hargs hs hb _ he hp ih =>
    simp only [Option.map_eq_some_iff] at hp
    obtain ⟨⟨vars, g6⟩, hp, rfl⟩ := hp
    have hs : scanDecls _ _ = some _ := hs
    simp only [Node.avoids, Bool.and_eq_true] at ha ih
    have k3 := ((hk.step (kindsRel.pushScope h0)).step (hargs.rel kindsRel)).step (kindsRel.scanDecls hs)
    exact (KeptIn.of_eq (pushScope_tail h0)).trans ((hargs.kept (avoidsTypes_args ha.1).1).trans ((KeptIn.of_eq (scanDecls_tail hs)).trans
      ((ih ha.2 k3).trans ((he.kept (step hb k3)).trans (.of_eq (popScope_tail hp))))))

/-! ## The variables of the innermost function -/

/-- The innermost function has an immutable variable `x` in slot `s`, not captured. -/
def Env.Own (g : Env) (s : Nat) (x : String) : Prop :=
  ∃ c rest v, g = c :: rest ∧ v ∈ visible c.scopes.stack ∧ v.slot = s ∧ v.name = x ∧ v.state = .initialized false ∧
    v.isCaptured = false

namespace Env.Own
variable {g g' : Env} {s : Nat} {x : String}

theorem lt (h : g.Own s x) (inv : StackInv g) : s < g.vars.length := by
  obtain ⟨c, rest, v, rfl, hv, rfl, -⟩ := h
  have hm : v.slot ∈ (visible c.scopes.stack).map (·.slot) := List.mem_map_of_mem hv
  rw [vars_length inv rfl]
  rw [inv.2.1.slots] at hm
  exact List.mem_range.1 (List.mem_reverse.1 hm)

theorem lt_slots (h : g.Own s x) (inv : StackInv g) : s < g.slotCount := by
  obtain ⟨c, rest, v, rfl, hv, rfl, -⟩ := h
  exact visible_slot_lt inv.2.1 hv

theorem not_flagged (h : g.Own s x) (inv : StackInv g) : ¬ g.Flagged s := by
  obtain ⟨c, rest, v, rfl, hv, rfl, -, -, hc⟩ := h
  rintro ⟨u, hu, hs, hf⟩
  have := slot_unique inv.2.1 hu hv hs
  subst this
  rw [hc] at hf; cases hf

/-- A variable found by name with another state has another slot. -/
theorem other (h : g.Own s x) (inv : StackInv g) {y : String} {v : ScopeVar} (hv : g.lookup y = some v)
    (hd : v.state ≠ .initialized false ∨ y ≠ x) : v.slot ≠ s := by
  obtain ⟨c, rest, u, rfl, hu, rfl, hx, hst, -⟩ := h
  intro he
  have hf : (visible c.scopes.stack).find? (fun v => v.name == y) = some v := hv
  have := slot_unique inv.2.1 (List.mem_of_find?_eq_some hf) hu he
  subst this
  rcases hd with hd | hd
  · exact hd hst
  · have := List.find?_some hf
    exact hd (by rw [← beq_iff_eq.1 this, hx])

theorem pushScope {k e} (h : g.Own s x) (hp : g.pushScope k e = some g') : g'.Own s x := by
  obtain ⟨c, rest, v, rfl, hv⟩ := h
  cases hp
  exact ⟨_, _, v, rfl, hv⟩

theorem popScope {vs} (h : g.Own s x) (inv : StackInv g) (hp : g.popScope = some (vs, g')) (hs : s < g'.vars.length) :
    g'.Own s x ∧ ∀ v ∈ vs, v.slot ≠ s := by
  have habove := fun v hv => (popScope_above inv hp (v := v) hv).1
  refine ⟨?_, fun v hv => by have := habove v hv; omega⟩
  obtain ⟨c, rest, top, st, rfl, hst, rfl, rfl⟩ := popScope_split hp
  obtain ⟨c', rest', v, he, hv, hs', hr⟩ := h
  cases he
  rw [hst] at hv
  simp only [visible, List.flatMap_cons, List.mem_append] at hv
  rcases hv with hv | hv
  · have := habove v hv; omega
  · exact ⟨_, _, v, rfl, hv, hs', hr⟩

theorem addLocal {y st slot} (h : g.Own s x) (inv : StackInv g) (hl : g.addLocal y st = some (slot, g')) :
    g'.Own s x ∧ slot ≠ s := by
  have hlt := h.lt inv
  obtain ⟨c, rest, v, rfl, hv, hs, hr⟩ := h
  rw [vars_length inv rfl] at hlt
  obtain ⟨k, a, u, ⟨st', n⟩, t⟩ := c
  cases st' with
  | nil => cases hl
  | cons sc ss =>
    cases hl
    simp only [visible, List.flatMap_cons] at hv
    refine ⟨⟨_, _, v, rfl, by simp only [visible, List.flatMap_cons, List.cons_append]; exact List.mem_cons_of_mem _ hv, hs, hr⟩, ?_⟩
    simp only [totalSlots_cons] at hlt ⊢
    omega

theorem setState {y st} {v : ScopeVar} (h : g.Own s x) (hv : g.lookup y = some v) (hs : v.slot ≠ s) :
    (g.setState y st).Own s x := by
  obtain ⟨c, rest, u, rfl, hu, rfl, hr⟩ := h
  refine ⟨_, _, u, rfl, modifyScopes_others y _ _ hv hu ?_, rfl, hr⟩
  rintro rfl
  exact hs rfl

theorem setTemps (n : Nat) (h : g.Own s x) : (g.setTemps n).Own s x := by
  obtain ⟨c, rest, u, rfl, hu⟩ := h
  exact ⟨_, _, u, rfl, hu⟩

theorem setCallDepth {d} (h : g.Own s x) (hd : g.setCallDepth d = some g') : g'.Own s x := by
  obtain ⟨c, rest, top, st, rfl, hst, rfl⟩ := setCallDepth_split hd
  obtain ⟨c', rest', u, he, hu, hr⟩ := h
  cases he
  refine ⟨_, _, u, rfl, ?_, hr⟩
  rw [hst] at hu
  simpa only [visible, List.flatMap_cons] using hu

theorem resolve {y i} (h : g.Own s x) (hr : resolveUpvalue y g = some (i, g')) : g'.Own s x := by
  obtain ⟨c, r, c', r', rfl, rfl, -, h1, -⟩ := resolve_outer y g i g' hr
  obtain ⟨c', rest', u, he, hu⟩ := h
  cases he
  exact ⟨_, _, u, rfl, by rw [h1]; exact hu.1, hu.2⟩

theorem ident {y i} (h : g.Own s x) (hr : IdentGen g y i g') : g'.Own s x := by
  cases hr with
  | «local» => exact h
  | captured _ hr => exact h.resolve hr
  | global => exact h

theorem type {slot t c} (h : g.Own s x) (hr : TypeGen g slot t c g') : g'.Own s x := by
  cases hr with
  | none => exact h
  | some hr => exact h.ident hr

theorem ret {c} (h : g.Own s x) (hr : ReturnGen g c g') : g'.Own s x := by
  cases hr with
  | plain => exact h
  | typed _ _ hr => exact h.ident hr

theorem kept (h : g.Own s x) (hk : KeptIn x g g') : g'.Own s x := by
  obtain ⟨c, rest, u, rfl, hu, hs, hx, hr⟩ := h
  cases hk with
  | cons hc _ => exact ⟨_, _, u, rfl, hc u hu hx, hs, hx, hr⟩

theorem addLocals {xs : List String} {ls : List (String × Nat)} (h : g.Own s x) (inv : StackInv g)
    (hl : g.addLocals xs = some (ls, g')) : g'.Own s x ∧ ∀ p ∈ ls, p.2 ≠ s := by
  induction xs generalizing ls g with
  | nil => cases hl; exact ⟨h, by simp⟩
  | cons y ys ih =>
    unfold Env.addLocals at hl
    split at hl
    · cases hl
    · rename_i hl1
      split at hl
      · cases hl
      · rename_i hr
        cases hl
        obtain ⟨h1, h2⟩ := h.addLocal inv hl1
        obtain ⟨h3, h4⟩ := ih h1 (slotRel.addLocal hl1 inv).1 hr
        refine ⟨h3, fun p hp => ?_⟩
        rcases List.mem_cons.1 hp with rfl | hp
        · exact h2
        · exact h4 p hp

theorem scanDecl (e : Expr) (h : g.Own s x) (inv : StackInv g) (hs : scanDecl e g = some g') : g'.Own s x := by
  cases e with
  | fnDecl =>
    simp only [Dice.scanDecl, Option.map_eq_some_iff] at hs
    obtain ⟨⟨s, g1⟩, hl, rfl⟩ := hs
    exact (h.addLocal inv hl).1
  | classDecl =>
    simp only [Dice.scanDecl, Option.map_eq_some_iff] at hs
    obtain ⟨⟨s, g1⟩, hl, rfl⟩ := hs
    exact (h.addLocal inv hl).1
  | exportDecl e => exact Env.Own.scanDecl e h inv (by simpa only [Dice.scanDecl] using hs)
  | _ => simp only [Dice.scanDecl] at hs; cases hs; exact h

theorem scanDecls {es : List Expr} (h : g.Own s x) (inv : StackInv g) (hs : scanDecls es g = some g') : g'.Own s x := by
  induction es generalizing g with
  | nil => cases hs; exact h
  | cons e es ih =>
    unfold Dice.scanDecls at hs
    split at hs
    · cases hs
    · rename_i hd
      exact ih (h.scanDecl e inv hd) (slotRel.scanDecl e hd inv).1 hs

/-- A scope that leaves the variable alone. -/
theorem scope {g1 g2 : Env} {k e vars} (inv : StackInv g) (h0 : g.pushScope k e = some g1) (hw : Widens g1 g2)
    (hp : g2.popScope = some (vars, g')) (h : g.Own s x) (h2 : g2.Own s x) : g'.Own s x ∧ ∀ v ∈ vars, v.slot ≠ s := by
  obtain ⟨inv', hv, -⟩ := Widens.scope h0 hw hp inv
  refine h2.popScope (hw (slotRel.pushScope h0 inv).1).1 hp ?_
  rw [Env.vars_view, hv, ← Env.vars_view]
  exact h.lt inv

end Env.Own

/-! ## Code -/

section
variable {P : Nat → Prop}

theorem Code.Spares.cons {a : Code} {cs : List Code} (h1 : a.Spares P) (h2 : (Code.block cs).Spares P) :
    (Code.block (a :: cs)).Spares P := ⟨h1, h2⟩

theorem Code.spares_nil : (Code.block []).Spares P := trivial

theorem byteOf {n : Nat} (h : n < 256) : (UInt8.ofNat n).toNat = n := by
  rw [UInt8.toNat_ofNat']
  omega

theorem dropCode_spares (n : Nat) : (dropCode n).Spares P := by
  induction n with
  | zero => trivial
  | succ n ih => exact ⟨trivial, trivial, ih⟩

theorem closeCode_spares {vs : List ScopeVar} (h : ∀ v ∈ vs, v.slot < 256 ∧ ¬ P v.slot) : (closeCode vs).Spares P := by
  induction vs with
  | nil => trivial
  | cons v vs ih =>
    refine ⟨ih fun v hv => h v (List.mem_cons_of_mem _ hv), ?_⟩
    split
    · show ¬ P (UInt8.ofNat v.slot).toNat
      rw [byteOf (h v List.mem_cons_self).1]
      exact (h v List.mem_cons_self).2
    · trivial

theorem fieldLocalsCode_spares {ls : List (String × Nat)} (h : ∀ p ∈ ls, p.2 < 256 ∧ ¬ P p.2) : (fieldLocalsCode ls).Spares P := by
  induction ls with
  | nil => trivial
  | cons p ls ih =>
    obtain ⟨f, slot⟩ := p
    refine ⟨trivial, trivial, ?_, trivial, ih fun v hv => h v (List.mem_cons_of_mem _ hv), trivial⟩
    show ¬ P (UInt8.ofNat slot).toNat
    rw [byteOf (h _ List.mem_cons_self).1]
    exact (h _ List.mem_cons_self).2

theorem intCode_spares (i : Int) : (intCode i).Spares P := by
  unfold intCode
  split
  · trivial
  · split <;> trivial

theorem FloatCode.spares {f : Float} {c : Code} (h : FloatCode f c) : c.Spares P := by
  cases h <;> trivial

theorem IdentGen.spares {g g' : Env} {x : String} {i : Instr} (h : IdentGen g x i g') : i.Spares P := by
  cases h <;> trivial

theorem TypeGen.spares {g g' : Env} {slot t c} (h : TypeGen g slot t c g') : c.Spares P := by
  cases h with
  | none => trivial
  | @some _ _ t _ h =>
    refine ⟨h.spares, ?_⟩
    cases t.isNullable <;> trivial

theorem ReturnGen.spares {g g' : Env} {c} (h : ReturnGen g c g') : c.Spares P := by
  cases h with
  | plain => trivial
  | typed _ _ h => exact ⟨h.spares, trivial⟩

theorem storeMember_spares (k : FnKind) (slot : Nat) (name : String) : (storeMember k slot name).Spares P := by
  unfold storeMember
  split
  · exact ⟨trivial, trivial⟩
  · exact ⟨trivial, trivial⟩
  · exact ⟨trivial, trivial, trivial, trivial⟩

end

theorem result_fn {ret : Option TypeAnn} (t) (h : (CompilerKind.function ret).returnType = some t) : ret = some t := by
  cases ret <;> simpa [CompilerKind.returnType] using h

theorem result_method {ret : Option TypeAnn} (t) (h : (CompilerKind.method ret).returnType = some t) : ret = some t := by
  cases ret <;> simpa [CompilerKind.returnType] using h

theorem result_kind {fk : FnKind} {ret : Option TypeAnn} (t) (h : (fnCompilerKind fk ret).returnType = some t) : ret = some t := by
  cases fk <;> simp only [fnCompilerKind] at h
  all_goals first | exact result_fn t h | exact result_method t h | cases h

/-- An inner function that does not use the name. -/
theorem Gen.fn_kept {x : String} {g g' : Env} {k : CompilerKind} {fk : FnKind} {args : List FnArg} {ret : Option TypeAnn}
    {body : Expr} {c : Code} {fn : Ctx} (hb : Gen (g.pushFn k) (.fnBody fk args (bodyExprs body) (bodyTrailing body)) c (fn :: g'))
    (ht : avoidsTypes x args ret = true) (ha : avoids x true body = true) (hk : ∀ t, k.returnType = some t → ret = some t) :
    KeptIn x g g' := by
  refine hb.kept (x := x) ?_ ?_
  · simp only [Node.avoids, Bool.and_eq_true]
    exact ⟨avoidsTypes_none ht, avoids_body ha⟩
  · intro k' t hk' ht'
    cases hk'
    exact (avoidsTypes_args ht).2 t (hk t ht')

/-- An inner function does not capture the variable. -/
theorem fnInstr_spares {x : String} {s : Nat} {g g' : Env} {k : CompilerKind} {nd : Node} {c : Code} {fn : Ctx}
    (hb : Gen (g.pushFn k) nd c (fn :: g')) (inv : StackInv g) (fl : FlagInv g) (ho : g'.Own s x) (hN : g'.slotCount ≤ 256)
    (bc : Bytecode) (name : String) (id : Nat) : (fnInstr bc name id fn.upvalues).Spares (· = s) := by
  have inv1 : StackInv (fn :: g') := (hb.rel slotRel ⟨List.Pairwise.nil, scopeInv_new _, by simp, inv⟩).1
  have fl1 : FlagInv (fn :: g') := hb.rel flagRel ⟨by simp, fl⟩
  unfold fnInstr
  split
  · trivial
  · intro d hd hl he
    have hlt := captured_slot_lt inv1 hd hl
    cases d with
    | outer => cases hl
    | parentLocal sl m =>
      have hf := fl1.1 sl m hd
      simp only [UpvalueDescriptor.description] at hlt he
      have : sl = s := by omega
      subst this
      exact ho.not_flagged inv1.2.2.2 hf

theorem lookup_slot_lt {g : Env} (inv : StackInv g) {y : String} {v : ScopeVar} (h : g.lookup y = some v) : v.slot < g.slotCount := by
  match g, h with
  | c :: rest, h => exact visible_slot_lt inv.2.1 (List.mem_of_find?_eq_some (show (visible c.scopes.stack).find? _ = some v from h))

theorem addLocal_slot_lt {g g' : Env} (inv : StackInv g) {y : String} {st : VarState} {slot : Nat} (h : g.addLocal y st = some (slot, g')) :
    slot < g'.slotCount := by
  obtain ⟨h1, h2⟩ := addLocal_vars inv h
  have i1 := (slotRel.addLocal h inv).1
  match g', h2, i1 with
  | [], h2, _ => cases h2
  | c :: rest, h2, i1 =>
    have h3 := vars_length i1 rfl
    rw [h2, List.length_cons] at h3
    have := i1.2.1.bound
    show slot < c.scopes.slotCount
    omega

theorem addLocals_slot_lt {xs : List String} {g g' : Env} (inv : StackInv g) {ls : List (String × Nat)}
    (h : g.addLocals xs = some (ls, g')) : ∀ p ∈ ls, p.2 < g'.slotCount := by
  induction xs generalizing g ls with
  | nil => cases h; simp
  | cons y ys ih =>
    have hx : ∃ slot g1 rest, g.addLocal y (.initialized false) = some (slot, g1) ∧ g1.addLocals ys = some (rest, g') ∧
        ls = (y, slot) :: rest := by
      unfold Env.addLocals at h
      split at h
      · cases h
      · rename_i slot g1 h1
        split at h
        · cases h
        · rename_i rest g2 h2
          cases h
          exact ⟨slot, g1, rest, h1, h2, rfl⟩
    obtain ⟨slot, g1, rest, h1, h2, rfl⟩ := hx
    have i1 := (slotRel.addLocal h1 inv).1
    intro p hp
    rcases List.mem_cons.1 hp with rfl | hp
    · have := addLocal_slot_lt inv h1
      have := (slotRel.addLocals h2 i1).2.top
      simp only
      omega
    · exact ih i1 h2 p hp

theorem popScope_slot_lt {g g' : Env} (inv : StackInv g) {vs : List ScopeVar} (h : g.popScope = some (vs, g')) {v : ScopeVar}
    (hv : v ∈ vs) : v.slot < g.slotCount := by
  obtain ⟨c, rest, top, st, rfl, hst, rfl, rfl⟩ := popScope_split h
  refine visible_slot_lt inv.2.1 ?_
  rw [hst]
  exact List.mem_append_left _ hv

/-- Pieces other than function bodies. -/
def Node.isFnBody : Node → Bool
  | .fnBody .. => true
  | _ => false

/-- **The code of source that avoids a name leaves the immutable variable of that name alone.** -/
theorem Gen.spares {x : String} {s : Nat} {g g' : Env} {nd : Node} {c : Code} (h : Gen g nd c g') (ha : nd.avoids x false = true)
    (hn : nd.isFnBody = false) (inv : StackInv g) (fl : FlagInv g) (ho : g.Own s x) :
    g'.Own s x ∧ (g'.slotCount ≤ 256 → c.Spares (· = s)) := by
  have one : ∀ {slot : Nat}, slot < 256 → slot ≠ s → ¬ (UInt8.ofNat slot).toNat = s := by
    intro slot h1 h2; rw [byteOf h1]; exact h2
  -- the environment after a construct
  have step : ∀ {g g' : Env} {nd : Node} {c : Code}, Gen g nd c g' → StackInv g → FlagInv g → StackInv g' ∧ FlagInv g' :=
    fun h i f => ⟨(h.rel slotRel i).1, h.rel flagRel f⟩
  have le : ∀ {g g' : Env} {nd : Node} {c : Code}, Gen g nd c g' → StackInv g → g'.slotCount ≤ 256 → g.slotCount ≤ 256 :=
    fun h i hN => (h.rel slotRel).le i hN
  have two : ∀ {g g1 g' : Env} {n1 n2 : Node} {c1 c2 : Code}, Gen g n1 c1 g1 → Gen g1 n2 c2 g' → n1.isFnBody = false → n2.isFnBody = false → StackInv g → FlagInv g →
      (StackInv g → FlagInv g → g.Own s x → g1.Own s x ∧ (g1.slotCount ≤ 256 → c1.Spares (· = s))) →
      (StackInv g1 → FlagInv g1 → g1.Own s x → g'.Own s x ∧ (g'.slotCount ≤ 256 → c2.Spares (· = s))) → g.Own s x →
      g'.Own s x ∧ (g'.slotCount ≤ 256 → c1.Spares (· = s) ∧ c2.Spares (· = s)) := by
    intro g g1 g' n1 n2 c1 c2 h1 h2 _ _ i f k1 k2 ho
    obtain ⟨o1, s1⟩ := k1 i f ho
    obtain ⟨o2, s2⟩ := k2 (step h1 i f).1 (step h1 i f).2 o1
    exact ⟨o2, fun hN => ⟨s1 (le h2 (step h1 i f).1 hN), s2 hN⟩⟩
  induction h with
  | ident h => exact ⟨ho.ident h, fun _ => h.spares⟩
  | unit | null | elsNone | itemsNil | argsNil | fieldsNil | clsNil | break_ | continue_ | str => exact ⟨ho, fun _ => trivial⟩
  | @bool g b => exact ⟨ho, fun _ => by cases b <;> trivial⟩
  | int => exact ⟨ho, fun _ => intCode_spares _⟩
  | float h => exact ⟨ho, fun _ => h.spares⟩
  | anonFn hb _ ih =>
    simp only [Node.avoids, Dice.avoids, Bool.and_eq_true] at ha
    have ho' := ho.kept (hb.fn_kept ha.1 ha.2 result_fn)
    exact ⟨ho', fun hN => fnInstr_spares hb inv fl ho' hN _ _ _⟩
  | opDecl _ hb _ ih =>
    simp only [Node.avoids, Dice.avoids, Bool.and_eq_true] at ha
    have ho' := ho.kept (hb.fn_kept ha.1 ha.2 result_fn)
    exact ⟨ho', fun hN => ⟨fnInstr_spares hb inv fl ho' hN _ _ _, trivial, trivial, trivial⟩⟩
  | object _ ih =>
    obtain ⟨o, sp⟩ := ih (by simpa [Node.avoids, Dice.avoids] using ha) rfl inv fl ho
    exact ⟨o, fun hN => ⟨trivial, sp hN⟩⟩
  | list _ ih | unary _ ih | field _ ih =>
    obtain ⟨o, sp⟩ := ih (by simpa [Node.avoids, Dice.avoids] using ha) rfl inv fl ho
    exact ⟨o, fun hN => ⟨sp hN, trivial⟩⟩
  | nullProp _ ih =>
    obtain ⟨o, sp⟩ := ih (by simpa [Node.avoids, Dice.avoids] using ha) rfl inv fl ho
    exact ⟨o, fun hN => ⟨sp hN, trivial, trivial, trivial, trivial, trivial⟩⟩
  | exportDecl _ _ _ _ _ _ ih =>
    obtain ⟨o, sp⟩ := ih (by simpa [Node.avoids, Dice.avoids] using ha) rfl inv fl ho
    exact ⟨o, fun hN => ⟨trivial, sp hN, trivial, trivial⟩⟩
  | @assignLocal g g' y rhs c v hv hm h ih =>
    simp only [Node.avoids, Dice.avoids, Bool.and_eq_true] at ha
    obtain ⟨o, sp⟩ := ih ha.2 rfl inv fl ho
    refine ⟨o, fun hN => ⟨sp hN, one ?_ (ho.other inv hv (.inl ?_))⟩⟩
    · have := lookup_slot_lt inv hv; have := le h inv hN; omega
    · intro hs; rw [ScopeVar.isMutable, hs] at hm; cases hm
  | @updateLocal g g' op y rhs c v o hv hm _ h ih =>
    simp only [Node.avoids, Dice.avoids, Bool.and_eq_true] at ha
    obtain ⟨o, sp⟩ := ih ha.2 rfl inv fl ho
    refine ⟨o, fun hN => ⟨trivial, sp hN, trivial, one ?_ (ho.other inv hv (.inl ?_)), trivial⟩⟩
    · have := lookup_slot_lt inv hv; have := le h inv hN; omega
    · intro hs; rw [ScopeVar.isMutable, hs] at hm; cases hm
  | assignCaptured _ hr _ _ _ ih =>
    simp only [Node.avoids, Dice.avoids, Bool.and_eq_true] at ha
    obtain ⟨o, sp⟩ := ih ha.2 rfl (slotRel.resolve hr inv).1 (flagRel.resolve hr fl) (ho.resolve hr)
    exact ⟨o, fun hN => ⟨sp hN, trivial⟩⟩
  | updateCaptured _ hr _ _ _ _ ih =>
    simp only [Node.avoids, Dice.avoids, Bool.and_eq_true] at ha
    obtain ⟨o, sp⟩ := ih ha.2 rfl (slotRel.resolve hr inv).1 (flagRel.resolve hr fl) (ho.resolve hr)
    exact ⟨o, fun hN => ⟨trivial, sp hN, trivial, trivial, trivial⟩⟩
  | assignField h1 h2 ih1 ih2 | binary _ h1 h2 ih1 ih2 =>
    simp only [Node.avoids, Dice.avoids, Bool.and_eq_true] at ha
    obtain ⟨o, sp⟩ := two h1 h2 rfl rfl inv fl (ih1 ha.1 rfl) (ih2 ha.2 rfl) ho
    exact ⟨o, fun hN => ⟨(sp hN).1, (sp hN).2, trivial, trivial⟩⟩
  | updateField _ h1 h2 ih1 ih2 =>
    simp only [Node.avoids, Dice.avoids, Bool.and_eq_true] at ha
    obtain ⟨o, sp⟩ := two h1 h2 rfl rfl inv fl (ih1 ha.1 rfl) (ih2 ha.2 rfl) ho
    exact ⟨o, fun hN => ⟨(sp hN).1, trivial, trivial, (sp hN).2, trivial, trivial, trivial⟩⟩
  | and h1 h2 ih1 ih2 | or h1 h2 ih1 ih2 =>
    simp only [Node.avoids, Dice.avoids, Bool.and_eq_true] at ha
    obtain ⟨o, sp⟩ := two h1 h2 rfl rfl inv fl (ih1 ha.1 rfl) (ih2 ha.2 rfl) ho
    exact ⟨o, fun hN => ⟨(sp hN).1, trivial, trivial, ⟨trivial, (sp hN).2, trivial, trivial⟩, trivial⟩⟩
  | coalesce h1 h2 ih1 ih2 =>
    simp only [Node.avoids, Dice.avoids, Bool.and_eq_true] at ha
    obtain ⟨o, sp⟩ := two h1 h2 rfl rfl inv fl (ih1 ha.1 rfl) (ih2 ha.2 rfl) ho
    exact ⟨o, fun hN => ⟨(sp hN).1, trivial, trivial, trivial, ⟨trivial, (sp hN).2, trivial⟩, trivial⟩⟩
  | pipeline h1 h2 ih1 ih2 =>
    simp only [Node.avoids, Dice.avoids, Bool.and_eq_true] at ha
    obtain ⟨o, sp⟩ := two h1 h2 rfl rfl inv fl (ih1 ha.2 rfl) (ih2 ha.1 rfl) ho
    exact ⟨o, fun hN => ⟨(sp hN).1, (sp hN).2, trivial, trivial⟩⟩
  | assignIndex h1 h2 h3 ih1 ih2 ih3 =>
    simp only [Node.avoids, Dice.avoids, Bool.and_eq_true] at ha
    obtain ⟨o2, sp⟩ := two h1 h2 rfl rfl inv fl (ih1 ha.1.1 rfl) (ih2 ha.1.2 rfl) ho
    obtain ⟨i1, f1⟩ := step h1 inv fl
    obtain ⟨i2, f2⟩ := step h2 i1 f1
    obtain ⟨o3, sp3⟩ := ih3 ha.2 rfl i2 f2 o2
    exact ⟨o3, fun hN => ⟨(sp (le h3 i2 hN)).1, (sp (le h3 i2 hN)).2, sp3 hN, trivial, trivial⟩⟩
  | updateIndex _ h1 h2 h3 ih1 ih2 ih3 =>
    simp only [Node.avoids, Dice.avoids, Bool.and_eq_true] at ha
    obtain ⟨o2, sp⟩ := two h1 h2 rfl rfl inv fl (ih1 ha.1.1 rfl) (ih2 ha.1.2 rfl) ho
    obtain ⟨i1, f1⟩ := step h1 inv fl
    obtain ⟨i2, f2⟩ := step h2 i1 f1
    obtain ⟨o3, sp3⟩ := ih3 ha.2 rfl i2 f2 o2
    exact ⟨o3, fun hN => ⟨(sp (le h3 i2 hN)).1, (sp (le h3 i2 hN)).2, trivial, trivial, trivial, sp3 hN, trivial, trivial, trivial⟩⟩
  | ifExpr h1 h2 h3 ih1 ih2 ih3 =>
    simp only [Node.avoids, Dice.avoids, Bool.and_eq_true] at ha
    obtain ⟨o2, sp⟩ := two h1 h2 rfl rfl inv fl (ih1 ha.1.1 rfl) (ih2 ha.1.2 rfl) ho
    obtain ⟨i1, f1⟩ := step h1 inv fl
    obtain ⟨i2, f2⟩ := step h2 i1 f1
    obtain ⟨o3, sp3⟩ := ih3 ha.2 rfl i2 f2 o2
    exact ⟨o3, fun hN => ⟨(sp (le h3 i2 hN)).1, (sp (le h3 i2 hN)).2, sp3 hN⟩⟩
  | «is» _ h1 ht ih =>
    simp only [Node.avoids, Dice.avoids, Bool.and_eq_true] at ha
    obtain ⟨o, sp⟩ := ih ha.1 rfl inv fl ho
    exact ⟨o.ident ht, fun hN => ⟨sp ((ht.rel slotRel).le (step h1 inv fl).1 hN), ht.spares, trivial, trivial⟩⟩
  | isNullable _ h1 h2 ht ih1 ih2 =>
    simp only [Node.avoids, Dice.avoids, Bool.and_eq_true] at ha
    obtain ⟨o, sp⟩ := two h1 h2 rfl rfl inv fl (ih1 ha.1 rfl) (ih2 ha.1 rfl) ho
    obtain ⟨i1, f1⟩ := step h1 inv fl
    have hN' := fun hN => (ht.rel slotRel).le (step h2 i1 f1).1 (N := 256) hN
    exact ⟨o.ident ht, fun hN => ⟨(sp (hN' hN)).1, trivial, trivial, trivial,
      ⟨trivial, (sp (hN' hN)).2, ht.spares, trivial, trivial⟩, trivial⟩⟩
  | varDecl h hl ht ih =>
    simp only [Node.avoids, Dice.avoids, Bool.and_eq_true] at ha
    obtain ⟨o, sp⟩ := ih ha.1 rfl inv fl ho
    obtain ⟨i1, f1⟩ := step h inv fl
    obtain ⟨o2, hne⟩ := o.addLocal i1 hl
    have i2 := (slotRel.addLocal hl i1).1
    refine ⟨o2.type ht, fun hN => ?_⟩
    have hN2 := (ht.rel slotRel).le i2 hN
    exact ⟨sp ((slotRel.addLocal hl).le i1 hN2), one (by have := addLocal_slot_lt i1 hl; omega) hne, ht.spares, trivial⟩
  | varDecls h hl ih =>
    simp only [Node.avoids, Dice.avoids, Bool.and_eq_true] at ha
    obtain ⟨o, sp⟩ := ih ha.1 rfl inv fl ho
    obtain ⟨i1, f1⟩ := step h inv fl
    obtain ⟨o2, hne⟩ := o.addLocals i1 hl
    refine ⟨o2, fun hN => ⟨sp ((slotRel.addLocals hl).le i1 hN), fieldLocalsCode_spares fun p hp => ⟨?_, hne p hp⟩⟩⟩
    have := addLocals_slot_lt i1 hl p hp
    omega
  | importItems hl =>
    obtain ⟨o2, hne⟩ := ho.addLocals inv hl
    refine ⟨o2, fun hN => ⟨trivial, fieldLocalsCode_spares fun p hp => ⟨?_, hne p hp⟩⟩⟩
    have := addLocals_slot_lt inv hl p hp
    omega
  | importModule hl hm =>
    obtain ⟨o2, hne⟩ := ho.addLocals inv hl
    have i1 := (slotRel.addLocals hl inv).1
    obtain ⟨o3, hne2⟩ := o2.addLocal i1 hm
    refine ⟨o3, fun hN => ⟨trivial, fieldLocalsCode_spares fun p hp => ⟨?_, hne p hp⟩, one (by have := addLocal_slot_lt i1 hm; omega) hne2, trivial⟩⟩
    have := addLocals_slot_lt inv hl p hp
    have := (slotRel.addLocal hm).le i1 hN
    omega
  | @fnDecl g g' name args ret body c fn bc id v _ hb _ hv hs ih =>
    simp only [Node.avoids, Dice.avoids, Bool.and_eq_true] at ha
    have ho' := ho.kept (hb.fn_kept ha.1 ha.2 result_fn)
    have i1 : StackInv g' := (slotRel.fn (hb.rel slotRel) inv).1
    have hne := ho'.other i1 hv (.inl (by rw [hs]; simp [VarState.initialized]))
    refine ⟨ho'.setState hv hne, fun hN => ?_⟩
    have hN1 := (slotRel.setState g' name (.function true)).le i1 hN
    exact ⟨fnInstr_spares hb inv fl ho' hN1 _ _ _, one (by have := lookup_slot_lt i1 hv; omega) hne⟩
  | @classDecl g g1 g2 g3 g4 g5 g' name base items cb superSlot v ci vars h0 hb hsup hv hs hg hi hp ihb ihi =>
    simp only [Node.avoids, Dice.avoids, Bool.and_eq_true, bne_iff_ne] at ha
    have i1 := (slotRel.pushScope h0 inv).1
    have f1 := flagRel.pushScope h0 fl
    obtain ⟨o2, sb⟩ := ihb (by simp only [Node.avoids, Bool.and_eq_true]; exact ⟨ha.1.1.2, ha.1.2⟩) rfl i1 f1 (ho.pushScope h0)
    obtain ⟨i2, f2⟩ := step hb i1 f1
    obtain ⟨o3, hne⟩ := o2.addLocal i2 hsup
    have i3 := (slotRel.addLocal hsup i2).1
    have hne2 := o3.other i3 hv (.inr ha.1.1.1)
    have k4 : StackInv g4 ∧ FlagInv g4 ∧ g4.Own s x ∧ Widens g3 g4 := by
      rw [hg]
      split
      · exact ⟨(slotRel.setState _ _ _ i3).1, flagRel.setState _ _ _ (flagRel.addLocal hsup f2), o3.setState hv hne2,
          widensRel.setState _ _ _⟩
      · exact ⟨i3, flagRel.addLocal hsup f2, o3, widensRel.refl _⟩
    obtain ⟨i4, f4, o4, w4⟩ := k4
    obtain ⟨o5, si⟩ := ihi ha.2 rfl i4 f4 o4
    obtain ⟨i5, f5⟩ := step hi i4 f4
    have w : Widens g1 g5 := widensRel.trans hb.widens (widensRel.trans (widensRel.addLocal hsup) (widensRel.trans w4 hi.widens))
    obtain ⟨o', hvars⟩ := Env.Own.scope inv h0 w hp ho o5
    refine ⟨o', fun hN => ?_⟩
    have hN5 := (slotRel.popScope hp).le i5 hN
    have hN4 := le hi i4 hN5
    have hN3 : g3.slotCount ≤ 256 := by
      rw [hg] at hN4
      split at hN4
      · exact (slotRel.setState _ _ _).le i3 hN4
      · exact hN4
    have hN2 := (slotRel.addLocal hsup).le i2 hN3
    refine ⟨sb hN2, one (by have := addLocal_slot_lt i2 hsup; omega) hne, trivial,
      one (by have := lookup_slot_lt i3 hv; omega) hne2, si hN5, closeCode_spares fun u hu => ⟨?_, hvars u hu⟩, trivial⟩
    have := popScope_slot_lt i5 hp hu
    omega
  | loop h0 h hp ih =>
    simp only [Node.avoids, Dice.avoids] at ha
    have i1 := (slotRel.pushScope h0 inv).1
    have f1 := flagRel.pushScope h0 fl
    obtain ⟨o2, sp⟩ := ih ha rfl i1 f1 (ho.pushScope h0)
    obtain ⟨i2, f2⟩ := step h i1 f1
    exact ⟨(Env.Own.scope inv h0 h.widens hp ho o2).1, fun hN => ⟨sp ((slotRel.popScope hp).le i2 hN), trivial⟩⟩
  | whileLoop h0 h1 h2 hp ih1 ih2 =>
    simp only [Node.avoids, Dice.avoids, Bool.and_eq_true] at ha ih2
    have i1 := (slotRel.pushScope h0 inv).1
    have f1 := flagRel.pushScope h0 fl
    obtain ⟨o2, sp⟩ := two h1 h2 rfl rfl i1 f1 (ih1 ha.1 rfl) (ih2 ha.2 rfl) (ho.pushScope h0)
    obtain ⟨i2, f2⟩ := step h1 i1 f1
    have i3 := (step h2 i2 f2).1
    refine ⟨(Env.Own.scope inv h0 (widensRel.trans h1.widens h2.widens) hp ho o2).1, fun hN => ?_⟩
    have := sp ((slotRel.popScope hp).le i3 hN)
    exact ⟨⟨this.1, trivial, this.2, trivial⟩, trivial⟩
  | rangeLoop _ h1 h2 h0 hl h3 hp ih1 ih2 ih3 =>
    simp only [Node.avoids, Dice.avoids, Bool.and_eq_true] at ha
    obtain ⟨o2, sp⟩ := two h1 h2 rfl rfl inv fl (ih1 ha.1.2 rfl) (ih2 ha.1.1 rfl) ho
    obtain ⟨i1, f1⟩ := step h1 inv fl
    obtain ⟨i2, f2⟩ := step h2 i1 f1
    have i3 := (slotRel.pushScope h0 i2).1
    obtain ⟨o4, hne⟩ := (o2.pushScope h0).addLocal i3 hl
    have i4 := (slotRel.addLocal hl i3).1
    have f4 := flagRel.addLocal hl (flagRel.pushScope h0 f2)
    obtain ⟨o5, sp3⟩ := ih3 ha.2 rfl i4 f4 o4
    obtain ⟨i5, f5⟩ := step h3 i4 f4
    obtain ⟨o', hvars⟩ := Env.Own.scope i2 h0 (widensRel.trans (widensRel.addLocal hl) h3.widens) hp o2 o5
    refine ⟨o', fun hN => ?_⟩
    have hN5 := (slotRel.popScope hp).le i5 hN
    have hN4 := le h3 i4 hN5
    have hN2 := (slotRel.trans (slotRel.pushScope h0) (slotRel.addLocal hl)).le i2 hN4
    refine ⟨(sp hN2).1, (sp hN2).2, ⟨one (by have := addLocal_slot_lt i3 hl; omega) hne, trivial, ?_, trivial, sp3 hN5, trivial, trivial,
      trivial, trivial, closeCode_spares fun u hu => ⟨?_, hvars u hu⟩, trivial⟩, trivial, trivial, trivial⟩
    · trivial
    · have := popScope_slot_lt i5 hp hu
      omega
  | forLoop _ h1 h0 hl h2 hp ih1 ih2 =>
    simp only [Node.avoids, Dice.avoids, Bool.and_eq_true] at ha
    obtain ⟨o1, sp1⟩ := ih1 ha.1 rfl inv fl ho
    obtain ⟨i1, f1⟩ := step h1 inv fl
    have i2 := (slotRel.pushScope h0 i1).1
    obtain ⟨o3, hne⟩ := (o1.pushScope h0).addLocal i2 hl
    have i3 := (slotRel.addLocal hl i2).1
    have f3 := flagRel.addLocal hl (flagRel.pushScope h0 f1)
    obtain ⟨o4, sp2⟩ := ih2 ha.2 rfl i3 f3 o3
    obtain ⟨i4, f4⟩ := step h2 i3 f3
    obtain ⟨o', hvars⟩ := Env.Own.scope i1 h0 (widensRel.trans (widensRel.addLocal hl) h2.widens) hp o1 o4
    refine ⟨o', fun hN => ?_⟩
    have hN4 := (slotRel.popScope hp).le i4 hN
    have hN3 := le h2 i3 hN4
    have hN1 := (slotRel.trans (slotRel.pushScope h0) (slotRel.addLocal hl)).le i1 hN3
    refine ⟨sp1 hN1, trivial, trivial, trivial, ⟨trivial, trivial, trivial, trivial, trivial,
      one (by have := addLocal_slot_lt i2 hl; omega) hne, trivial, sp2 hN4, trivial, closeCode_spares fun u hu => ⟨?_, hvars u hu⟩, trivial⟩,
      trivial, trivial, trivial, trivial⟩
    have := popScope_slot_lt i4 hp hu
    omega
  | blockExpr _ ih => exact ih (by simpa [Node.avoids, Dice.avoids] using ha) rfl inv fl ho
  | returnValue _ _ h hr ih =>
    obtain ⟨o, sp⟩ := ih (by simpa [Node.avoids, Dice.avoids, avoidsOpt] using ha) rfl inv fl ho
    exact ⟨o.ret hr, fun hN => ⟨sp ((hr.rel slotRel).le (step h inv fl).1 hN), dropCode_spares _, hr.spares, trivial⟩⟩
  | returnUnit _ _ hr => exact ⟨ho.ret hr, fun hN => ⟨trivial, dropCode_spares _, hr.spares, trivial⟩⟩
  | returnSelf _ _ hr => exact ⟨ho.ret hr, fun hN => ⟨trivial, dropCode_spares _, hr.spares, trivial⟩⟩
  | chain _ _ h0 h _ h1 ih =>
    have i1 := (slotRel.setCallDepth h0 inv).1
    have f1 := flagRel.setCallDepth h0 fl
    obtain ⟨o, sp⟩ := ih ha rfl i1 f1 (ho.setCallDepth h0)
    refine ⟨o.setCallDepth h1, fun hN => ?_⟩
    have := sp ((slotRel.setCallDepth h1).le (step h i1 f1).1 hN)
    split <;> exact this
  | errProp _ _ h hr ih =>
    obtain ⟨o, sp⟩ := ih (by simpa [Node.avoids, Dice.avoids] using ha) rfl inv fl ho
    exact ⟨o.ret hr, fun hN => ⟨sp ((hr.rel slotRel).le (step h inv fl).1 hN), trivial, trivial, ⟨dropCode_spares _, hr.spares⟩, trivial, trivial⟩⟩
  | superAccess _ _ h1 h2 =>
    exact ⟨(ho.ident h1).ident h2, fun _ => ⟨h1.spares, h2.spares, trivial, trivial⟩⟩
  | call h1 h2 hg ih1 ih2 =>
    simp only [Node.avoids, Dice.avoids, Bool.and_eq_true] at ha
    obtain ⟨o, sp⟩ := two h1 h2 rfl rfl inv fl (ih1 ha.1 rfl) (ih2 ha.2 rfl) ho
    subst hg
    obtain ⟨i1, f1⟩ := step h1 inv fl
    refine ⟨o.setTemps _, fun hN => ?_⟩
    have := sp ((slotRel.setTemps _ _).le (step h2 i1 f1).1 hN)
    exact ⟨this.1, this.2, trivial, trivial⟩
  | superCall _ h hi ih =>
    simp only [Node.avoids, Dice.avoids, Bool.and_eq_true] at ha
    obtain ⟨o, sp⟩ := ih ha.2 rfl inv fl ho
    refine ⟨(o.setTemps _).ident hi, fun hN => ?_⟩
    have i1 := (step h inv fl).1
    have hN1 := (slotRel.trans (slotRel.setTemps _ _) (hi.rel slotRel)).le i1 hN
    exact ⟨trivial, sp hN1, hi.spares, trivial, trivial⟩
  | index h1 _ h0 h2 h3 hg ih1 ih2 =>
    simp only [Node.avoids, Dice.avoids, Bool.and_eq_true] at ha
    subst hg
    obtain ⟨o1, sp1⟩ := ih1 ha.1 rfl inv fl ho
    obtain ⟨i1, f1⟩ := step h1 inv fl
    have i2 := fun n => (slotRel.trans (slotRel.setCallDepth h0) (slotRel.setTemps _ n) i1).1
    have f2 := fun n => flagRel.setTemps _ n (flagRel.setCallDepth h0 f1)
    obtain ⟨o2, sp2⟩ := ih2 ha.2 rfl (i2 _) (f2 _) ((o1.setCallDepth h0).setTemps _)
    have i3 := (step h2 (i2 _) (f2 _)).1
    refine ⟨(o2.setTemps _).setCallDepth h3, fun hN => ?_⟩
    have hN3 := (slotRel.trans (slotRel.setTemps _ _) (slotRel.setCallDepth h3)).le i3 hN
    have hN2 := le h2 (i2 _) hN3
    exact ⟨sp1 ((slotRel.trans (slotRel.setCallDepth h0) (slotRel.setTemps _ _)).le i1 hN2), sp2 hN3, trivial, trivial⟩
  | seqNil _ ih => exact ih (by simpa [Node.avoids, avoidsAll] using ha) rfl inv fl ho
  | seqCons h1 h2 ih1 ih2 =>
    simp only [Node.avoids, avoidsAll, Bool.and_eq_true] at ha ih2
    obtain ⟨o, sp⟩ := two h1 h2 rfl rfl inv fl (ih1 ha.1.1 rfl) (ih2 ⟨ha.1.2, ha.2⟩ rfl) ho
    exact ⟨o, fun hN => ⟨(sp hN).1, trivial, (sp hN).2, trivial⟩⟩
  | elsSome _ ih => exact ih (by simpa [Node.avoids, avoidsOpt] using ha) rfl inv fl ho
  | itemsCons h1 h2 ih1 ih2 =>
    simp only [Node.avoids, avoidsAll, Bool.and_eq_true] at ha ih2
    exact two h1 h2 rfl rfl inv fl (ih1 ha.1 rfl) (ih2 ha.2 rfl) ho
  | argsCons hd h0 h1 h2 h3 ih1 ih2 =>
    simp only [Node.avoids, avoidsAll, Bool.and_eq_true] at ha ih2
    have i1 := fun n => (slotRel.trans (slotRel.setCallDepth h0) (slotRel.setTemps _ n) inv).1
    have f1 := fun n => flagRel.setTemps _ n (flagRel.setCallDepth h0 fl)
    obtain ⟨o1, sp1⟩ := ih1 ha.1 rfl (i1 _) (f1 _) ((ho.setCallDepth h0).setTemps _)
    obtain ⟨i2, f2⟩ := step h1 (i1 _) (f1 _)
    have i3 := (slotRel.setCallDepth h2 i2).1
    obtain ⟨o2, sp2⟩ := ih2 ha.2 rfl i3 (flagRel.setCallDepth h2 f2) (o1.setCallDepth h2)
    exact ⟨o2, fun hN => ⟨sp1 ((slotRel.setCallDepth h2).le i2 (le h3 i3 hN)), sp2 hN⟩⟩
  | fieldsCons h1 h2 ih1 ih2 =>
    simp only [Node.avoids, avoidsFields, Bool.and_eq_true] at ha ih2
    obtain ⟨o, sp⟩ := two h1 h2 rfl rfl inv fl (ih1 ha.1 rfl) (ih2 ha.2 rfl) ho
    exact ⟨o, fun hN => ⟨trivial, (sp hN).1, trivial, trivial, (sp hN).2, trivial⟩⟩
  | baseSome _ ih =>
    simp only [Node.avoids, avoidsOpt, Bool.and_eq_true] at ha
    exact ih ha.2 rfl inv fl ho
  | baseNone h => exact ⟨ho.ident h, fun _ => h.spares⟩
  | clsFn _ _ _ hb _ h2 _ ih2 =>
    simp only [Node.avoids, avoidsAll, Dice.avoids, Bool.and_eq_true] at ha ih2
    have ho' := ho.kept (hb.fn_kept ha.1.1 ha.1.2 result_kind)
    have i1 := (slotRel.fn (hb.rel slotRel) inv).1
    obtain ⟨o, sp⟩ := ih2 ha.2 rfl i1 (flagRel.fn (hb.rel flagRel) fl) ho'
    exact ⟨o, fun hN => ⟨fnInstr_spares hb inv fl ho' (le h2 i1 hN) _ _ _, storeMember_spares _ _ _, sp hN, trivial⟩⟩
  | clsOp _ _ _ hb _ h2 _ ih2 =>
    simp only [Node.avoids, avoidsAll, Dice.avoids, Bool.and_eq_true] at ha ih2
    have ho' := ho.kept (hb.fn_kept ha.1.1 ha.1.2 result_method)
    have i1 := (slotRel.fn (hb.rel slotRel) inv).1
    obtain ⟨o, sp⟩ := ih2 ha.2 rfl i1 (flagRel.fn (hb.rel flagRel) fl) ho'
    exact ⟨o, fun hN => ⟨fnInstr_spares hb inv fl ho' (le h2 i1 hN) _ _ _, trivial, trivial, sp hN, trivial⟩⟩
  | @block g g1 g2 g3 g' k es t c vars h0 hs h hp ih =>
    have hs : scanDecls _ _ = some _ := hs
    have i1 := (slotRel.pushScope h0 inv).1
    have i2 := (slotRel.scanDecls hs i1).1
    have f2 := flagRel.scanDecls hs (flagRel.pushScope h0 fl)
    obtain ⟨o3, sp⟩ := ih ha rfl i2 f2 ((ho.pushScope h0).scanDecls i1 hs)
    have i3 := (step h i2 f2).1
    obtain ⟨o', hvars⟩ := Env.Own.scope inv h0 (widensRel.trans (widensRel.scanDecls hs) h.widens) hp ho o3
    refine ⟨o', fun hN => ?_⟩
    have hN3 := (slotRel.popScope hp).le i3 hN
    refine ⟨sp hN3, by cases k <;> trivial, closeCode_spares fun u hu => ⟨?_, hvars u hu⟩, trivial⟩
    have := popScope_slot_lt i3 hp hu
    omega
  | fnBody => cases hn

end Dice
