import Verif.CallProps
import Verif.Eval

/-!
# Static facts for the simulation

How code generation changes what is visible: the variables of the innermost function only grow within a scope, those
of the enclosing functions stay the same, captures are only added, and a variable that a function captures is marked.
-/

namespace Dice

open ScopeStack

/-! ## Relations kept by code generation, with scopes as a unit -/

/-- Relations between environments that hold for every change the code generation makes, where scopes are left again. -/
structure ScopeRel (R : Env → Env → Prop) : Prop where
  refl : ∀ g, R g g
  trans : ∀ {a b c}, R a b → R b c → R a c
  scope : ∀ {g g1 g2 g' : Env} {k e vars}, g.pushScope k e = some g1 → R g1 g2 → g2.popScope = some (vars, g') → R g g'
  addLocal : ∀ {g g' : Env} {x st slot}, g.addLocal x st = some (slot, g') → R g g'
  setTemps : ∀ (g : Env) n, R g (g.setTemps n)
  setCallDepth : ∀ {g g' : Env} {d}, g.setCallDepth d = some g' → R g g'
  resolve : ∀ {g g' : Env} {x i}, resolveUpvalue x g = some (i, g') → R g g'

/-- The same with the changes that the functions and classes inside make. -/
structure ScopedRel (R : Env → Env → Prop) : Prop extends ScopeRel R where
  setState : ∀ (g : Env) x st, R g (g.setState x st)
  fn : ∀ {g g' : Env} {nd fn c k}, Gen (g.pushFn k) nd c (fn :: g') → R g g'

section
variable {R : Env → Env → Prop} (hR : ScopeRel R)
include hR

theorem ScopeRel.addLocals {xs : List String} {ls : List (String × Nat)} {g g' : Env}
    (h : g.addLocals xs = some (ls, g')) : R g g' := by
  induction xs generalizing ls g with
  | nil => cases h; exact hR.refl _
  | cons x xs ih =>
    unfold Env.addLocals at h
    split at h
    · cases h
    · rename_i hl
      split at h
      · cases h
      · rename_i hr
        cases h
        exact hR.trans (hR.addLocal hl) (ih hr)

theorem IdentGen.srel {g g' : Env} {x : String} {i : Instr} (h : IdentGen g x i g') : R g g' := by
  cases h with
  | «local» => exact hR.refl _
  | captured _ hr => exact hR.resolve hr
  | global => exact hR.refl _

theorem TypeGen.srel {g g' : Env} {slot : Nat} {t : Option TypeAnn} {c : Code} (h : TypeGen g slot t c g') :
    R g g' := by
  cases h with
  | none => exact hR.refl _
  | some h => exact h.srel hR

theorem ReturnGen.srel {g g' : Env} {c : Code} (h : ReturnGen g c g') : R g g' := by
  cases h with
  | plain => exact hR.refl _
  | typed _ _ h => exact h.srel hR

theorem ParamsGen.srel {g g' : Env} {args : List FnArg} {c : Code} (h : ParamsGen g args c g') : R g g' := by
  induction h with
  | nil => exact hR.refl _
  | cons hl ht _ ih => exact hR.trans (hR.addLocal hl) (hR.trans (ht.srel hR) ih)

theorem ArgsGen.srel {g g' : Env} {k : FnKind} {args : List FnArg} {c : Code} (h : ArgsGen g k args c g') :
    R g g' := by
  cases h with
  | noReceiver _ hl hp => exact hR.trans (hR.addLocal hl) (hp.srel hR)
  | receiver _ hp => exact hp.srel hR

theorem ScopeRel.scanDecl (e : Expr) {g g' : Env} (h : scanDecl e g = some g') : R g g' := by
  cases e with
  | fnDecl =>
    simp only [Dice.scanDecl, Option.map_eq_some_iff] at h
    obtain ⟨⟨s, g1⟩, hl, rfl⟩ := h
    exact hR.addLocal hl
  | classDecl =>
    simp only [Dice.scanDecl, Option.map_eq_some_iff] at h
    obtain ⟨⟨s, g1⟩, hl, rfl⟩ := h
    exact hR.addLocal hl
  | exportDecl e => exact ScopeRel.scanDecl e (by simpa only [Dice.scanDecl] using h)
  | _ => simp only [Dice.scanDecl] at h; cases h; exact hR.refl _

theorem ScopeRel.scanDecls {es : List Expr} {g g' : Env} (h : scanDecls es g = some g') : R g g' := by
  induction es generalizing g with
  | nil => cases h; exact hR.refl _
  | cons e es ih =>
    unfold Dice.scanDecls at h
    split at h
    · cases h
    · rename_i hd
      exact hR.trans (hR.scanDecl e hd) (ih h)

theorem FnEndGen.srel {g g' : Env} {k : FnKind} {c : Code} (h : FnEndGen g k c g') : R g g' := by
  cases h with
  | constructor => exact hR.refl _
  | other _ h => exact h.srel hR

end

section
variable {R : Env → Env → Prop} (hR : ScopedRel R)
include hR

theorem Gen.srel {g g' : Env} {nd : Node} {c : Code} (h : Gen g nd c g') : R g g' := by
  induction h with
  | ident h => exact h.srel hR.toScopeRel
  | unit => exact hR.refl _
  | null => exact hR.refl _
  | bool => exact hR.refl _
  | int => exact hR.refl _
  | float => exact hR.refl _
  | str => exact hR.refl _
  | anonFn hb _ _ => exact hR.fn hb
  | object _ ih => exact ih
  | list _ ih => exact ih
  | assignLocal _ _ _ ih => exact ih
  | updateLocal _ _ _ _ ih => exact ih
  | assignCaptured _ hr _ _ _ ih => exact hR.trans (hR.resolve hr) ih
  | updateCaptured _ hr _ _ _ _ ih => exact hR.trans (hR.resolve hr) ih
  | assignField _ _ ih1 ih2 => exact hR.trans ih1 ih2
  | updateField _ _ _ ih1 ih2 => exact hR.trans ih1 ih2
  | assignIndex _ _ _ ih1 ih2 ih3 => exact hR.trans ih1 (hR.trans ih2 ih3)
  | updateIndex _ _ _ _ ih1 ih2 ih3 => exact hR.trans ih1 (hR.trans ih2 ih3)
  | unary _ ih => exact ih
  | and _ _ ih1 ih2 => exact hR.trans ih1 ih2
  | or _ _ ih1 ih2 => exact hR.trans ih1 ih2
  | pipeline _ _ ih1 ih2 => exact hR.trans ih1 ih2
  | coalesce _ _ ih1 ih2 => exact hR.trans ih1 ih2
  | binary _ _ _ ih1 ih2 => exact hR.trans ih1 ih2
  | «is» _ _ ht ih => exact hR.trans ih (ht.srel hR.toScopeRel)
  | isNullable _ _ _ ht ih1 ih2 => exact hR.trans ih1 (hR.trans ih2 (ht.srel hR.toScopeRel))
  | varDecl _ hl ht ih => exact hR.trans ih (hR.trans (hR.addLocal hl) (ht.srel hR.toScopeRel))
  | varDecls _ hl ih => exact hR.trans ih (hR.addLocals hl)
  | fnDecl _ hb _ _ _ _ => exact hR.trans (hR.fn hb) (hR.setState _ _ _)
  | opDecl _ hb _ _ => exact hR.fn hb
  | classDecl h0 _ hsup _ _ hg _ hp ihb ihi =>
    refine hR.scope h0 (hR.trans ihb (hR.trans (hR.addLocal hsup) (hR.trans ?_ ihi))) hp
    rw [hg]
    split
    · exact hR.setState _ _ _
    · exact hR.refl _
  | importItems hl => exact hR.addLocals hl
  | importModule hl hm => exact hR.trans (hR.addLocals hl) (hR.addLocal hm)
  | exportDecl _ _ _ _ _ _ ih => exact ih
  | ifExpr _ _ _ ih1 ih2 ih3 => exact hR.trans ih1 (hR.trans ih2 ih3)
  | loop h0 _ hp ih => exact hR.scope h0 ih hp
  | whileLoop h0 _ _ hp ih1 ih2 => exact hR.scope h0 (hR.trans ih1 ih2) hp
  | rangeLoop _ _ _ h0 hl _ hp ih1 ih2 ih3 =>
    exact hR.trans ih1 (hR.trans ih2 (hR.scope h0 (hR.trans (hR.addLocal hl) ih3) hp))
  | forLoop _ _ h0 hl _ hp ih1 ih2 => exact hR.trans ih1 (hR.scope h0 (hR.trans (hR.addLocal hl) ih2) hp)
  | break_ => exact hR.refl _
  | continue_ => exact hR.refl _
  | blockExpr _ ih => exact ih
  | returnValue _ _ _ hr ih => exact hR.trans ih (hr.srel hR.toScopeRel)
  | returnUnit _ _ hr => exact hr.srel hR.toScopeRel
  | returnSelf _ _ hr => exact hr.srel hR.toScopeRel
  | chain he hd h0 _ hd' h1 ih => exact hR.trans (hR.setCallDepth h0) (hR.trans ih (hR.setCallDepth h1))
  | nullProp _ ih => exact ih
  | errProp _ _ _ hr ih => exact hR.trans ih (hr.srel hR.toScopeRel)
  | field _ ih => exact ih
  | superAccess _ _ h1 h2 => exact hR.trans (h1.srel hR.toScopeRel) (h2.srel hR.toScopeRel)
  | call _ _ hg ih1 ih2 => exact hg ▸ hR.trans ih1 (hR.trans ih2 (hR.setTemps _ _))
  | superCall _ _ hi ih => exact hR.trans ih (hR.trans (hR.setTemps _ _) (hi.srel hR.toScopeRel))
  | index _ hd h0 _ h3 hg ih1 ih2 =>
    exact hg ▸ hR.trans ih1 (hR.trans (hR.setCallDepth h0) (hR.trans (hR.setTemps _ _) (hR.trans ih2
      (hR.trans (hR.setTemps _ _) (hR.setCallDepth h3)))))
  | seqNil _ ih => exact ih
  | seqCons _ _ ih1 ih2 => exact hR.trans ih1 ih2
  | elsSome _ ih => exact ih
  | elsNone => exact hR.refl _
  | itemsNil => exact hR.refl _
  | itemsCons _ _ ih1 ih2 => exact hR.trans ih1 ih2
  | argsNil => exact hR.refl _
  | argsCons hd h0 _ h2 _ ih1 ih2 =>
    exact hR.trans (hR.setCallDepth h0) (hR.trans (hR.setTemps _ _) (hR.trans ih1 (hR.trans (hR.setCallDepth h2) ih2)))
  | fieldsNil => exact hR.refl _
  | fieldsCons _ _ ih1 ih2 => exact hR.trans ih1 ih2
  | baseSome _ ih => exact ih
  | baseNone h => exact h.srel hR.toScopeRel
  | clsNil => exact hR.refl _
  | clsFn _ _ _ hb _ _ _ ih2 => exact hR.trans (hR.fn hb) ih2
  | clsOp _ _ _ hb _ _ _ ih2 => exact hR.trans (hR.fn hb) ih2
  | block h0 hs _ hp ih => exact hR.scope h0 (hR.trans (hR.scanDecls hs) ih) hp
  | fnBody _ h0 ha hs _ _ he hp ih =>
    simp only [Option.map_eq_some_iff] at hp
    obtain ⟨⟨vars, g6⟩, hp, rfl⟩ := hp
    exact hR.scope h0 (hR.trans (ha.srel hR.toScopeRel) (hR.trans (hR.scanDecls hs) (hR.trans ih (he.srel hR.toScopeRel)))) hp

end

/-! ## What is visible -/

/-- The names and slots of the variables of a function, by scope. -/
def Ctx.view (c : Ctx) : List (List (String × Nat)) := c.scopes.abs

/-- A variable of the function is marked as captured. -/
def Ctx.Flagged (c : Ctx) (s : Nat) : Prop := ∃ v ∈ visible c.scopes.stack, v.slot = s ∧ v.isCaptured = true

/-- The names and slots of the variables of the innermost function, by scope. -/
def Env.view : Env → List (List (String × Nat))
  | [] => []
  | c :: _ => c.view

/-- A variable of the innermost function is marked as captured. -/
def Env.Flagged : Env → Nat → Prop
  | [], _ => False
  | c :: _, s => c.Flagged s

/-- An enclosing function: more captures, more marks, the same variables. -/
structure CtxLe (c c' : Ctx) : Prop where
  upvalues : c.upvalues <+: c'.upvalues
  view : c'.view = c.view
  flags : ∀ s, c.Flagged s → c'.Flagged s

inductive OuterLe : Env → Env → Prop where
  | nil : OuterLe [] []
  | cons {c c' r r'} (h : CtxLe c c') (hr : OuterLe r r') : OuterLe (c :: r) (c' :: r')

/-- More captures, and the enclosing functions keep their variables. -/
def Below : Env → Env → Prop
  | [], [] => True
  | c :: r, c' :: r' => c.upvalues <+: c'.upvalues ∧ OuterLe r r'
  | _, _ => False

theorem CtxLe.refl (c : Ctx) : CtxLe c c := ⟨List.prefix_refl _, rfl, fun _ h => h⟩

theorem CtxLe.trans {a b c : Ctx} (h1 : CtxLe a b) (h2 : CtxLe b c) : CtxLe a c :=
  ⟨h1.upvalues.trans h2.upvalues, h2.view.trans h1.view, fun s h => h2.flags s (h1.flags s h)⟩

theorem OuterLe.refl (g : Env) : OuterLe g g := by
  induction g with
  | nil => exact .nil
  | cons c r ih => exact .cons (.refl c) ih

theorem OuterLe.trans {a b c : Env} (h1 : OuterLe a b) (h2 : OuterLe b c) : OuterLe a c := by
  induction h1 generalizing c with
  | nil => exact h2
  | cons h hr ih =>
    cases h2 with
    | cons h' hr' => exact .cons (h.trans h') (ih hr')

theorem Below.refl (g : Env) : Below g g := by
  cases g with
  | nil => trivial
  | cons c r => exact ⟨List.prefix_refl _, .refl r⟩

theorem Below.trans {a b c : Env} (h1 : Below a b) (h2 : Below b c) : Below a c := by
  match a, b, c, h1, h2 with
  | [], [], [], _, _ => trivial
  | _ :: _, _ :: _, _ :: _, h1, h2 => exact ⟨h1.1.trans h2.1, h1.2.trans h2.2⟩

theorem OuterLe.toBelow {g g' : Env} (h : OuterLe g g') : Below g g' := by
  cases h with
  | nil => trivial
  | cons h hr => exact ⟨h.upvalues, hr⟩

/-- Marking variables or changing their states keeps the names, slots and marks. -/
theorem modifyScopes_flags (x : String) (f : ScopeVar → ScopeVar) (hs : ∀ v, (f v).slot = v.slot)
    (hc : ∀ v, v.isCaptured = true → (f v).isCaptured = true) (cs : List ScopeContext) {v : ScopeVar}
    (hv : v ∈ visible cs) : ∃ v' ∈ visible (modifyScopes x f cs), v'.slot = v.slot ∧
      (v.isCaptured = true → v'.isCaptured = true) := by
  induction cs with
  | nil => simp [visible] at hv
  | cons c cs ih =>
    have hmod : ∀ vs : List ScopeVar, v ∈ vs → ∃ v' ∈ modifyVars x f vs, v'.slot = v.slot ∧
        (v.isCaptured = true → v'.isCaptured = true) := by
      intro vs
      induction vs with
      | nil => intro h; cases h
      | cons u us ihu =>
        intro h
        unfold modifyVars
        split
        · rcases List.mem_cons.1 h with rfl | h
          · exact ⟨_, List.mem_cons_self, hs _, hc _⟩
          · exact ⟨v, List.mem_cons_of_mem _ h, rfl, id⟩
        · rcases List.mem_cons.1 h with rfl | h
          · exact ⟨_, List.mem_cons_self, rfl, id⟩
          · obtain ⟨v', h1, h2⟩ := ihu h
            exact ⟨v', List.mem_cons_of_mem _ h1, h2⟩
    simp only [visible, List.flatMap_cons, List.mem_append] at hv
    unfold modifyScopes
    split
    · simp only [visible, List.flatMap_cons, List.mem_append]
      rcases hv with hv | hv
      · obtain ⟨v', h1, h2⟩ := hmod _ hv
        exact ⟨v', .inl h1, h2⟩
      · exact ⟨v, .inr hv, rfl, id⟩
    · simp only [visible, List.flatMap_cons, List.mem_append]
      rcases hv with hv | hv
      · exact ⟨v, .inl hv, rfl, id⟩
      · obtain ⟨v', h1, h2⟩ := ih hv
        exact ⟨v', .inr h1, h2⟩

theorem modifyScopes_view (x : String) (f : ScopeVar → ScopeVar) (h : ∀ v, (f v).name = v.name ∧ (f v).slot = v.slot)
    (s : ScopeStack) : (s.modifyLocal x f).abs = s.abs := by
  have := congrArg (List.map (·.1)) (modifyScopes_abs x f h s.stack)
  simpa [ScopeStack.abs, ScopeStack.modifyLocal, Function.comp_def] using this

theorem addUpvalue_prefix (c : Ctx) (d : UpvalueDescriptor) : c.upvalues <+: (c.addUpvalue d).2.upvalues := by
  obtain ⟨⟨⟨more, h⟩, _, _, _⟩, _⟩ := addUpvalue_spec c d _ _ rfl
  exact ⟨more, h.symm⟩

theorem addUpvalue_scopes (c : Ctx) (d : UpvalueDescriptor) : (c.addUpvalue d).2.scopes = c.scopes :=
  (addUpvalue_spec c d _ _ rfl).2.1

/-- What resolving a captured name changes: captures of the innermost function; captures and marks outside. -/
theorem resolve_outer (x : String) (st : List Ctx) (i : Nat) (st' : List Ctx) (h : resolveUpvalue x st = some (i, st')) :
    ∃ c r c' r', st = c :: r ∧ st' = c' :: r' ∧ c.upvalues <+: c'.upvalues ∧ c'.scopes = c.scopes ∧ OuterLe r r' := by
  induction st generalizing i st' with
  | nil => cases h
  | cons cur rest ih =>
    cases rest with
    | nil => cases h
    | cons parent rest =>
      unfold resolveUpvalue at h
      cases hl : parent.scopes.local? x with
      | some v =>
        rw [hl] at h
        simp only at h
        cases h
        refine ⟨_, _, _, _, rfl, rfl, addUpvalue_prefix _ _, addUpvalue_scopes _ _, .cons ⟨List.prefix_refl _, ?_, ?_⟩ (.refl _)⟩
        · exact modifyScopes_view x (fun v => { v with isCaptured := true }) (fun v => ⟨rfl, rfl⟩) parent.scopes
        · rintro s ⟨u, hu, rfl, hc⟩
          obtain ⟨v', h1, h2, h3⟩ := modifyScopes_flags x (fun v => { v with isCaptured := true }) (fun _ => rfl)
            (fun _ _ => rfl) parent.scopes.stack hu
          exact ⟨v', h1, h2, h3 hc⟩
      | none =>
        rw [hl] at h
        simp only at h
        cases hrec : resolveUpvalue x (parent :: rest) with
        | none => rw [hrec] at h; cases h
        | some r =>
          obtain ⟨o, pr⟩ := r
          rw [hrec] at h
          obtain ⟨c, r, c', r', h1, rfl, h3, h4, h5⟩ := ih _ _ hrec
          cases h1
          simp only at h
          cases h
          refine ⟨_, _, _, _, rfl, rfl, addUpvalue_prefix _ _, addUpvalue_scopes _ _, .cons ⟨h3, ?_, ?_⟩ h5⟩
          · unfold Ctx.view; rw [h4]
          · unfold Ctx.Flagged; rw [h4]; exact fun _ h => h

theorem resolve_below {g g' : Env} {x : String} {i : Nat} (h : resolveUpvalue x g = some (i, g')) : Below g g' := by
  obtain ⟨c, r, c', r', rfl, rfl, h1, -, h2⟩ := resolve_outer x g i g' h
  exact ⟨h1, h2⟩

theorem belowRel : EnvRel Below where
  refl := Below.refl
  trans := Below.trans
  pushScope {g g' k e} h := by
    match g, h with
    | c :: rest, h => cases h; exact ⟨List.prefix_refl _, .refl _⟩
  popScope {g g' vars} h := by
    match g, h with
    | c :: rest, h =>
      unfold Env.popScope at h
      simp only at h
      split at h
      · cases h
      · cases h; exact ⟨List.prefix_refl _, .refl _⟩
  addLocal {g g' x st slot} h := by
    match g, h with
    | c :: rest, h =>
      unfold Env.addLocal at h
      simp only at h
      split at h
      · cases h
      · cases h; exact ⟨List.prefix_refl _, .refl _⟩
  setState g x st := by
    cases g with
    | nil => trivial
    | cons c rest => exact ⟨List.prefix_refl _, .refl _⟩
  setTemps g n := by
    cases g with
    | nil => trivial
    | cons c rest => exact ⟨List.prefix_refl _, .refl _⟩
  setCallDepth {g g' d} h := by
    match g, h with
    | c :: rest, h =>
      unfold Env.setCallDepth at h
      simp only at h
      split at h
      · cases h
      · cases h; exact ⟨List.prefix_refl _, .refl _⟩
  resolve h := resolve_below h
  fn h := h.2.toBelow

/-- The enclosing functions during the compilation of a function. -/
theorem Gen.outer {g g' : Env} {k : CompilerKind} {nd : Node} {c : Code} {fn : Ctx} (h : Gen (g.pushFn k) nd c (fn :: g')) :
    OuterLe g g' := (h.rel belowRel).2

/-! ## Marks of captured variables -/

/-- Captured variables are marked. -/
def FlagInv : Env → Prop
  | [] => True
  | c :: r => (∀ s m, .parentLocal s m ∈ c.upvalues → Env.Flagged r s) ∧ FlagInv r

theorem OuterLe.flagged {g g' : Env} (h : OuterLe g g') {s : Nat} (hs : g.Flagged s) : g'.Flagged s := by
  cases h with
  | nil => exact hs
  | cons h _ => exact h.flags s hs

theorem flagInv_resolve (x : String) (st : List Ctx) (i : Nat) (st' : List Ctx)
    (h : resolveUpvalue x st = some (i, st')) (inv : FlagInv st) : FlagInv st' := by
  induction st generalizing i st' with
  | nil => cases h
  | cons cur rest ih =>
    cases rest with
    | nil => cases h
    | cons parent rest =>
      obtain ⟨c0, r0, c0', r0', h0, h0', -, -, hout⟩ := resolve_outer _ _ _ _ h
      cases h0
      unfold resolveUpvalue at h
      cases hl : parent.scopes.local? x with
      | some v =>
        rw [hl] at h
        simp only at h
        cases h
        cases h0'
        refine ⟨fun s m hs => ?_, inv.2.1, inv.2.2⟩
        rcases (addUpvalue_spec cur _ _ _ rfl).2.2.2.2 _ hs with hs | hs
        · exact hout.flagged (inv.1 s m hs)
        · cases hs
          have := local?_modifyScopes x (fun v => { v with isCaptured := true }) (fun _ => rfl) parent.scopes.stack
          unfold ScopeStack.local? at hl
          rw [hl] at this
          exact ⟨_, List.mem_of_find?_eq_some this, rfl, rfl⟩
      | none =>
        rw [hl] at h
        simp only at h
        cases hrec : resolveUpvalue x (parent :: rest) with
        | none => rw [hrec] at h; cases h
        | some r =>
          obtain ⟨o, pr⟩ := r
          rw [hrec] at h
          obtain ⟨c1, r1, c1', r1', h1, rfl, -⟩ := resolve_outer _ _ _ _ hrec
          simp only at h
          cases h
          cases h0'
          refine ⟨fun s m hs => ?_, ih _ _ hrec inv.2⟩
          rcases (addUpvalue_spec cur _ _ _ rfl).2.2.2.2 _ hs with hs | hs
          · exact hout.flagged (inv.1 s m hs)
          · cases hs

theorem flagRel : EnvRel fun g g' => FlagInv g → FlagInv g' where
  refl _ h := h
  trans h1 h2 h := h2 (h1 h)
  pushScope {g g' k e} h := by
    match g, h with
    | c :: rest, h => cases h; exact id
  popScope {g g' vars} h := by
    match g, h with
    | c :: rest, h =>
      unfold Env.popScope at h
      simp only at h
      split at h
      · cases h
      · cases h; exact id
  addLocal {g g' x st slot} h := by
    match g, h with
    | c :: rest, h =>
      unfold Env.addLocal at h
      simp only at h
      split at h
      · cases h
      · cases h; exact id
  setState g x st := by cases g <;> exact id
  setTemps g n := by cases g <;> exact id
  setCallDepth {g g' d} h := by
    match g, h with
    | c :: rest, h =>
      unfold Env.setCallDepth at h
      simp only at h
      split at h
      · cases h
      · cases h; exact id
  resolve {g g' x i} h := flagInv_resolve x g i g' h
  fn {g g' fn k} h := fun inv => by
    have h0 : FlagInv (g.pushFn k) := by
      unfold Env.pushFn FlagInv
      exact ⟨fun s m hs => (List.not_mem_nil hs).elim, inv⟩
    exact (h h0).2

/-! ## The variables of the innermost function -/

/-- New variables in the innermost scope. -/
def addTop (pre : List (String × Nat)) : List (List (String × Nat)) → List (List (String × Nat))
  | [] => []
  | s :: ss => (pre ++ s) :: ss

theorem addTop_nil (v : List (List (String × Nat))) : addTop [] v = v := by cases v <;> rfl

theorem addTop_addTop (a b : List (String × Nat)) (v : List (List (String × Nat))) :
    addTop a (addTop b v) = addTop (a ++ b) v := by
  cases v with
  | nil => rfl
  | cons s ss => simp only [addTop, List.append_assoc]

theorem Env.vars_view (g : Env) : g.vars = g.view.flatten := by
  cases g with
  | nil => rfl
  | cons c r =>
    simp only [Env.vars, Env.view, Ctx.view, ScopeStack.abs, visible]
    rw [List.flatMap_def, List.map_flatten, List.map_map]
    rfl

theorem Env.flagged_lt {g : Env} (inv : StackInv g) {s : Nat} (h : g.Flagged s) : s < g.vars.length := by
  cases g with
  | nil => cases h
  | cons c r =>
    obtain ⟨v, hv, rfl, -⟩ := h
    have hm : v.slot ∈ (visible c.scopes.stack).map (·.slot) := List.mem_map_of_mem hv
    rw [vars_length inv rfl]
    rw [inv.2.1.slots] at hm
    exact List.mem_range.1 (List.mem_reverse.1 hm)

theorem pushScope_view {g g' : Env} {k e} (h : g.pushScope k e = some g') : g'.view = [] :: g.view := by
  match g, h with
  | c :: rest, h => cases h; rfl

theorem pushScope_flagged {g g' : Env} {k e} (h : g.pushScope k e = some g') (s : Nat) : g'.Flagged s ↔ g.Flagged s := by
  match g, h with
  | c :: rest, h => cases h; exact Iff.rfl

theorem popScope_split {g g' : Env} {vs} (h : g.popScope = some (vs, g')) : ∃ c rest top st, g = c :: rest ∧
    c.scopes.stack = top :: st ∧ vs = top.variables ∧ g' = { c with scopes := { c.scopes with stack := st } } :: rest := by
  match g, h with
  | c :: rest, h =>
    unfold Env.popScope ScopeStack.popScope at h
    simp only at h
    cases hst : c.scopes.stack with
    | nil => rw [hst] at h; cases h
    | cons top st => rw [hst] at h; cases h; exact ⟨c, rest, top, st, rfl, hst, rfl, rfl⟩

theorem popScope_view {g g' : Env} {vs} (h : g.popScope = some (vs, g')) :
    g.view = vs.map (fun v => (v.name, v.slot)) :: g'.view := by
  obtain ⟨c, rest, top, st, rfl, hst, rfl, rfl⟩ := popScope_split h
  simp only [Env.view, Ctx.view, ScopeStack.abs, hst, List.map_cons]

/-- The variables of a scope lie above those that stay. -/
theorem popScope_slots {g g' : Env} {vs} (inv : StackInv g) (h : g.popScope = some (vs, g')) :
    vs.map (·.slot) = ((List.range vs.length).map (g'.vars.length + ·)).reverse := by
  have inv' := (slotRel.popScope h inv).1
  obtain ⟨c, rest, top, st, rfl, hst, rfl, rfl⟩ := popScope_split h
  have h1 := inv.2.1.slots
  have h2 := inv'.2.1.slots
  have hl := vars_length inv' rfl
  have hc := inv.2.1.count top (by rw [hst]; exact List.mem_cons_self)
  simp only at h2 hl ⊢
  rw [hl, hc]
  rw [hst, totalSlots_cons] at h1
  simp only [visible, List.flatMap_cons, List.map_append] at h1 h2
  rw [h2, Nat.add_comm, List.range_add, List.reverse_append] at h1
  exact List.append_cancel_right h1

theorem popScope_flagged {g g' : Env} {vs} (h : g.popScope = some (vs, g')) (s : Nat) :
    g.Flagged s ↔ (∃ v ∈ vs, v.slot = s ∧ v.isCaptured = true) ∨ g'.Flagged s := by
  obtain ⟨c, rest, top, st, rfl, hst, rfl, rfl⟩ := popScope_split h
  simp only [Env.Flagged, Ctx.Flagged, hst, visible, List.flatMap_cons, List.mem_append]
  constructor
  · rintro ⟨v, hv | hv, h1⟩
    · exact .inl ⟨v, hv, h1⟩
    · exact .inr ⟨v, hv, h1⟩
  · rintro (⟨v, hv, h1⟩ | ⟨v, hv, h1⟩)
    · exact ⟨v, .inl hv, h1⟩
    · exact ⟨v, .inr hv, h1⟩

theorem popScope_above {g g' : Env} {vs} (inv : StackInv g) (h : g.popScope = some (vs, g')) {v : ScopeVar} (hv : v ∈ vs) :
    g'.vars.length ≤ v.slot ∧ v.slot < g'.vars.length + vs.length := by
  have hm : v.slot ∈ vs.map (·.slot) := List.mem_map_of_mem hv
  rw [popScope_slots inv h] at hm
  simp only [List.mem_reverse, List.mem_map, List.mem_range] at hm
  obtain ⟨i, hi, he⟩ := hm
  omega

theorem popScope_vars {g g' : Env} {vs} (h : g.popScope = some (vs, g')) :
    g.vars = vs.map (fun v => (v.name, v.slot)) ++ g'.vars := by
  rw [Env.vars_view, Env.vars_view, popScope_view h, List.flatten_cons]

theorem popScope_keeps {g g' : Env} {vs} (inv : StackInv g) (h : g.popScope = some (vs, g')) {s : Nat} (hs : g.Flagged s)
    (hlt : s < g'.vars.length) : g'.Flagged s := by
  rcases (popScope_flagged h s).1 hs with ⟨v, hv, rfl, -⟩ | h
  · have := (popScope_above inv h hv).1; omega
  · exact h

theorem addLocal_view {g g' : Env} {x st slot} (h : g.addLocal x st = some (slot, g')) :
    g'.view = addTop [(x, slot)] g.view := by
  match g, h with
  | c :: rest, h =>
    obtain ⟨k, a, u, ⟨st', n⟩, t⟩ := c
    cases st' with
    | nil => cases h
    | cons s ss => cases h; rfl

theorem addLocal_flagged {g g' : Env} {x st slot} (h : g.addLocal x st = some (slot, g')) (s : Nat) :
    g'.Flagged s ↔ g.Flagged s := by
  match g, h with
  | c :: rest, h =>
    obtain ⟨k, a, u, ⟨st', n⟩, t⟩ := c
    cases st' with
    | nil => cases h
    | cons sc ss =>
      cases h
      simp only [Env.Flagged, Ctx.Flagged, visible, List.flatMap_cons, List.cons_append, List.mem_cons]
      constructor
      · rintro ⟨v, rfl | hv, h1, h2⟩
        · cases h2
        · exact ⟨v, hv, h1, h2⟩
      · rintro ⟨v, hv, h1⟩
        exact ⟨v, .inr hv, h1⟩

theorem setState_view (g : Env) (x st) : (g.setState x st).view = g.view := by
  cases g with
  | nil => rfl
  | cons c rest => exact modifyScopes_view x (fun v => { v with state := st }) (fun v => ⟨rfl, rfl⟩) c.scopes

theorem setState_flagged {g : Env} {x st} {s : Nat} (h : g.Flagged s) : (g.setState x st).Flagged s := by
  cases g with
  | nil => exact h
  | cons c rest =>
    obtain ⟨v, hv, rfl, hc⟩ := h
    obtain ⟨v', h1, h2, h3⟩ := modifyScopes_flags x (fun v => { v with state := st }) (fun _ => rfl) (fun _ h => h)
      c.scopes.stack hv
    exact ⟨v', h1, h2, h3 hc⟩

theorem setTemps_view (g : Env) (n : Nat) : (g.setTemps n).view = g.view := by cases g <;> rfl

theorem setTemps_flagged (g : Env) (n s : Nat) : (g.setTemps n).Flagged s ↔ g.Flagged s := by cases g <;> exact Iff.rfl

theorem setCallDepth_split {g g' : Env} {d} (h : g.setCallDepth d = some g') : ∃ c rest top st, g = c :: rest ∧
    c.scopes.stack = top :: st ∧
    g' = { c with scopes := { c.scopes with stack := { top with callContext := { depth := d } } :: st } } :: rest := by
  match g, h with
  | c :: rest, h =>
    unfold Env.setCallDepth ScopeStack.modifyTop at h
    simp only at h
    cases hst : c.scopes.stack with
    | nil => rw [hst] at h; cases h
    | cons top st => rw [hst] at h; cases h; exact ⟨c, rest, top, st, rfl, hst, rfl⟩

theorem setCallDepth_view {g g' : Env} {d} (h : g.setCallDepth d = some g') : g'.view = g.view := by
  obtain ⟨c, rest, top, st, rfl, hst, rfl⟩ := setCallDepth_split h
  simp only [Env.view, Ctx.view, ScopeStack.abs, hst, List.map_cons]

theorem setCallDepth_flagged {g g' : Env} {d} (h : g.setCallDepth d = some g') (s : Nat) : g'.Flagged s ↔ g.Flagged s := by
  obtain ⟨c, rest, top, st, rfl, hst, rfl⟩ := setCallDepth_split h
  simp only [Env.Flagged, Ctx.Flagged, hst, visible, List.flatMap_cons]

theorem resolve_view {g g' : Env} {x i} (h : resolveUpvalue x g = some (i, g')) : g'.view = g.view := by
  obtain ⟨c, r, c', r', rfl, rfl, -, h1, -⟩ := resolve_outer x g i g' h
  simp only [Env.view, Ctx.view, h1]

theorem resolve_flagged {g g' : Env} {x i} (h : resolveUpvalue x g = some (i, g')) (s : Nat) :
    g'.Flagged s ↔ g.Flagged s := by
  obtain ⟨c, r, c', r', rfl, rfl, -, h1, -⟩ := resolve_outer x g i g' h
  simp only [Env.Flagged, Ctx.Flagged, h1]

theorem OuterLe.view {g g' : Env} (h : OuterLe g g') : g'.view = g.view := by
  cases h with
  | nil => rfl
  | cons h _ => exact h.view

/-- Within a scope variables are only added, and marks stay. -/
def Widens (g g' : Env) : Prop :=
  StackInv g → StackInv g' ∧ (∃ pre, g'.view = addTop pre g.view) ∧ ∀ s, g.Flagged s → g'.Flagged s

theorem Widens.scope {g g1 g2 g' : Env} {k e vars} (h0 : g.pushScope k e = some g1) (h : Widens g1 g2)
    (hp : g2.popScope = some (vars, g')) (inv : StackInv g) :
    StackInv g' ∧ g'.view = g.view ∧ ∀ s, g.Flagged s → g'.Flagged s := by
  obtain ⟨inv2, ⟨pre, hv⟩, hf⟩ := h (slotRel.pushScope h0 inv).1
  have inv' := (slotRel.popScope hp inv2).1
  have hv' : g'.view = g.view := by
    rw [popScope_view hp, pushScope_view h0] at hv
    simp only [addTop] at hv
    exact (List.cons.inj hv).2
  refine ⟨inv', hv', fun s hs => popScope_keeps inv2 hp (hf s ((pushScope_flagged h0 s).2 hs)) ?_⟩
  rw [Env.vars_view, hv', ← Env.vars_view]
  exact Env.flagged_lt inv hs

theorem widensRel : ScopedRel Widens where
  refl g inv := ⟨inv, ⟨[], (addTop_nil _).symm⟩, fun _ h => h⟩
  trans h1 h2 inv := by
    obtain ⟨i1, ⟨p1, v1⟩, f1⟩ := h1 inv
    obtain ⟨i2, ⟨p2, v2⟩, f2⟩ := h2 i1
    exact ⟨i2, ⟨p2 ++ p1, by rw [v2, v1, addTop_addTop]⟩, fun s h => f2 s (f1 s h)⟩
  scope h0 h hp inv := by
    obtain ⟨i, v, f⟩ := Widens.scope h0 h hp inv
    exact ⟨i, ⟨[], by rw [v, addTop_nil]⟩, f⟩
  addLocal h inv := ⟨(slotRel.addLocal h inv).1, ⟨_, addLocal_view h⟩, fun s hs => (addLocal_flagged h s).2 hs⟩
  setState g x st inv := ⟨(slotRel.setState g x st inv).1, ⟨[], by rw [setState_view, addTop_nil]⟩,
    fun _ hs => setState_flagged hs⟩
  setTemps g n inv := ⟨(slotRel.setTemps g n inv).1, ⟨[], by rw [setTemps_view, addTop_nil]⟩,
    fun s hs => (setTemps_flagged g n s).2 hs⟩
  setCallDepth h inv := ⟨(slotRel.setCallDepth h inv).1, ⟨[], by rw [setCallDepth_view h, addTop_nil]⟩,
    fun s hs => (setCallDepth_flagged h s).2 hs⟩
  resolve h inv := ⟨(slotRel.resolve h inv).1, ⟨[], by rw [resolve_view h, addTop_nil]⟩,
    fun s hs => (resolve_flagged h s).2 hs⟩
  fn h inv := ⟨(slotRel.fn (h.rel slotRel) inv).1, ⟨[], by rw [h.outer.view, addTop_nil]⟩, fun _ hs => h.outer.flagged hs⟩

theorem Gen.widens {g g' : Env} {nd : Node} {c : Code} (h : Gen g nd c g') : Widens g g' := h.srel widensRel

/-! ## Syntax that declares nothing -/

/-- Whether a piece of syntax may declare a variable that what follows can see. -/
def Node.declares : Node → Bool
  | .expr e | .link e => Src.declares e
  | .els t => Src.declaresOpt t
  | .items es | .args es => Src.declaresAny es
  | .fields fs => Src.declaresField fs
  | .block .. => false
  | _ => true

theorem IdentGen.view {g g' : Env} {x : String} {i : Instr} (h : IdentGen g x i g') : g'.view = g.view := by
  cases h with
  | «local» => rfl
  | captured _ hr => exact resolve_view hr
  | global => rfl

theorem ReturnGen.view {g g' : Env} {c : Code} (h : ReturnGen g c g') : g'.view = g.view := by
  cases h with
  | plain => rfl
  | typed _ _ h => exact h.view

theorem Gen.still {g g' : Env} {nd : Node} {c : Code} (h : Gen g nd c g') (inv : StackInv g) (hd : nd.declares = false) :
    g'.view = g.view := by
  induction h with
  | ident h => exact h.view
  | unit | null | bool | int | float | str | break_ | continue_ | elsNone | itemsNil | argsNil | fieldsNil => rfl
  | anonFn hb _ _ => exact hb.outer.view
  | object _ ih => exact ih inv (by simpa [Node.declares, Src.declares] using hd)
  | list _ ih => exact ih inv (by simpa [Node.declares, Src.declares] using hd)
  | assignLocal _ _ _ ih => exact ih inv (by simpa [Node.declares, Src.declares] using hd)
  | updateLocal _ _ _ _ ih => exact ih inv (by simpa [Node.declares, Src.declares] using hd)
  | assignCaptured _ hr _ _ _ ih =>
    rw [ih (slotRel.resolve hr inv).1 (by simpa [Node.declares, Src.declares] using hd), resolve_view hr]
  | updateCaptured _ hr _ _ _ _ ih =>
    rw [ih (slotRel.resolve hr inv).1 (by simpa [Node.declares, Src.declares] using hd), resolve_view hr]
  | assignField h1 _ ih1 ih2 | updateField _ h1 _ ih1 ih2 | and h1 _ ih1 ih2 | or h1 _ ih1 ih2 | coalesce h1 _ ih1 ih2
  | binary _ h1 _ ih1 ih2 =>
    simp only [Node.declares, Src.declares, Bool.or_eq_false_iff] at hd
    rw [ih2 (h1.widens inv).1 hd.2, ih1 inv hd.1]
  | pipeline h1 _ ih1 ih2 =>
    simp only [Node.declares, Src.declares, Bool.or_eq_false_iff] at hd
    rw [ih2 (h1.widens inv).1 hd.1, ih1 inv hd.2]
  | assignIndex h1 h2 _ ih1 ih2 ih3 | updateIndex _ h1 h2 _ ih1 ih2 ih3 | ifExpr h1 h2 _ ih1 ih2 ih3 =>
    simp only [Node.declares, Src.declares, Bool.or_eq_false_iff] at hd
    have inv1 := (h1.widens inv).1
    rw [ih3 (h2.widens inv1).1 hd.2, ih2 inv1 hd.1.2, ih1 inv hd.1.1]
  | unary _ ih => exact ih inv (by simpa [Node.declares, Src.declares] using hd)
  | «is» _ _ ht ih => rw [ht.view, ih inv (by simpa [Node.declares, Src.declares] using hd)]
  | isNullable _ h1 _ ht ih1 ih2 =>
    have hd' := (by simpa [Node.declares, Src.declares] using hd)
    rw [ht.view, ih2 (h1.widens inv).1 hd', ih1 inv hd']
  | varDecl | varDecls | importItems | importModule | exportDecl => cases hd
  | classDecl h0 hb hsup _ _ hg hi hp _ _ =>
    refine (Widens.scope h0 (widensRel.trans hb.widens (widensRel.trans (widensRel.addLocal hsup) (widensRel.trans ?_ hi.widens))) hp inv).2.1
    rw [hg]
    split
    · exact widensRel.setState _ _ _
    · exact widensRel.refl _
  | fnDecl _ hb _ _ _ _ => rw [setState_view, hb.outer.view]
  | opDecl _ hb _ _ => exact hb.outer.view
  | loop h0 h hp _ => exact (Widens.scope h0 h.widens hp inv).2.1
  | whileLoop h0 h1 h2 hp _ _ => exact (Widens.scope h0 (widensRel.trans h1.widens h2.widens) hp inv).2.1
  | rangeLoop _ h1 h2 h0 hl h3 hp ih1 ih2 _ =>
    simp only [Node.declares, Src.declares, Bool.or_eq_false_iff] at hd
    have inv1 := (h1.widens inv).1
    rw [(Widens.scope h0 (widensRel.trans (widensRel.addLocal hl) h3.widens) hp (h2.widens inv1).1).2.1, ih2 inv1 hd.1,
      ih1 inv hd.2]
  | forLoop _ h1 h0 hl h2 hp ih1 _ =>
    rw [(Widens.scope h0 (widensRel.trans (widensRel.addLocal hl) h2.widens) hp (h1.widens inv).1).2.1,
      ih1 inv (by simpa [Node.declares, Src.declares] using hd)]
  | blockExpr _ ih => exact ih inv rfl
  | returnValue _ _ _ hr ih =>
    rw [hr.view, ih inv (by simpa [Node.declares, Src.declares, Src.declaresOpt] using hd)]
  | returnUnit _ _ hr => exact hr.view
  | returnSelf _ _ hr => exact hr.view
  | chain _ _ h0 _ _ h1 ih =>
    rw [setCallDepth_view h1, ih (slotRel.setCallDepth h0 inv).1 hd, setCallDepth_view h0]
  | nullProp _ ih => exact ih inv (by simpa [Node.declares, Src.declares] using hd)
  | errProp _ _ _ hr ih => rw [hr.view, ih inv (by simpa [Node.declares, Src.declares] using hd)]
  | superAccess _ _ h1 h2 => rw [h2.view, h1.view]
  | superCall _ _ hi ih => rw [hi.view, setTemps_view, ih inv (by simpa [Node.declares, Src.declares] using hd)]
  | field _ ih => exact ih inv (by simpa [Node.declares, Src.declares] using hd)
  | call h1 _ hg ih1 ih2 =>
    simp only [Node.declares, Src.declares, Bool.or_eq_false_iff] at hd
    rw [hg, setTemps_view, ih2 (h1.widens inv).1 hd.2, ih1 inv hd.1]
  | index h1 _ h0 _ h3 hg ih1 ih2 =>
    simp only [Node.declares, Src.declares, Bool.or_eq_false_iff] at hd
    have inv1 := (h1.widens inv).1
    rw [hg, setCallDepth_view h3, setTemps_view,
      ih2 (slotRel.setTemps _ _ (slotRel.setCallDepth h0 inv1).1).1 hd.2, setTemps_view, setCallDepth_view h0, ih1 inv hd.1]
  | seqNil | seqCons | baseSome | baseNone | clsNil | clsFn | clsOp | fnBody => cases hd
  | elsSome _ ih => exact ih inv (by simpa [Node.declares, Src.declaresOpt] using hd)
  | itemsCons h1 _ ih1 ih2 =>
    simp only [Node.declares, Src.declaresAny, Bool.or_eq_false_iff] at hd
    rw [ih2 (h1.widens inv).1 hd.2, ih1 inv hd.1]
  | argsCons _ h0 h1 h2 _ ih1 ih2 =>
    simp only [Node.declares, Src.declaresAny, Bool.or_eq_false_iff] at hd
    have inv1 := fun n => (slotRel.setTemps _ n (slotRel.setCallDepth h0 inv).1).1
    rw [ih2 (slotRel.setCallDepth h2 (h1.widens (inv1 _)).1).1 hd.2, setCallDepth_view h2, ih1 (inv1 _) hd.1, setTemps_view,
      setCallDepth_view h0]
  | fieldsCons h1 _ ih1 ih2 =>
    simp only [Node.declares, Src.declaresField, Bool.or_eq_false_iff] at hd
    rw [ih2 (h1.widens inv).1 hd.2, ih1 inv hd.1]
  | block h0 hs h hp _ => exact (Widens.scope h0 (widensRel.trans (widensRel.scanDecls hs) h.widens) hp inv).2.1

/-! ## Syntax without functions -/

/-- Whether a piece of syntax contains no functions. -/
def Node.noFn : Node → Bool
  | .expr e | .link e => Src.noFn e
  | .els t => Src.noFnOpt t
  | .items es | .args es => Src.noFnAny es
  | .fields fs => Src.noFnField fs
  | .block _ es t | .seq es t => Src.noFnAny es && Src.noFnOpt t
  | _ => false

/-- No variable of the function is marked as captured. -/
def Unmarked (g g' : Env) : Prop := ∀ s, g'.Flagged s → g.Flagged s

theorem unmarkedRel : ScopeRel Unmarked where
  refl _ _ h := h
  trans h1 h2 s h := h1 s (h2 s h)
  scope h0 h hp s hs := (pushScope_flagged h0 s).1 (h s ((popScope_flagged hp s).2 (.inr hs)))
  addLocal h s hs := (addLocal_flagged h s).1 hs
  setTemps g n s hs := (setTemps_flagged g n s).1 hs
  setCallDepth h s hs := (setCallDepth_flagged h s).1 hs
  resolve h s hs := (resolve_flagged h s).1 hs

/-- Without functions nothing is captured. -/
theorem Gen.unmarked {g g' : Env} {nd : Node} {c : Code} (h : Gen g nd c g') (hd : nd.noFn = true) : Unmarked g g' := by
  have hR := unmarkedRel
  induction h with
  | ident h => exact h.srel hR
  | unit | null | bool | int | float | str | break_ | continue_ | elsNone | itemsNil | argsNil | fieldsNil => exact hR.refl _
  | object _ ih | list _ ih | assignLocal _ _ _ ih | updateLocal _ _ _ _ ih | unary _ ih => exact ih (by simpa [Node.noFn, Src.noFn] using hd)
  | nullProp _ ih | field _ ih => exact ih (by simpa [Node.noFn, Src.noFn] using hd)
  | elsSome _ ih => exact ih (by simpa [Node.noFn, Src.noFnOpt] using hd)
  | blockExpr _ ih => exact ih (by simpa [Node.noFn, Src.noFn] using hd)
  | seqNil _ ih => exact ih (by simpa [Node.noFn, Src.noFnAny] using hd)
  | assignCaptured _ hr _ _ _ ih => exact hR.trans (hR.resolve hr) (ih (by simpa [Node.noFn, Src.noFn] using hd))
  | updateCaptured _ hr _ _ _ _ ih => exact hR.trans (hR.resolve hr) (ih (by simpa [Node.noFn, Src.noFn] using hd))
  | assignField _ _ ih1 ih2 | updateField _ _ _ ih1 ih2 | and _ _ ih1 ih2 | or _ _ ih1 ih2 | coalesce _ _ ih1 ih2
  | binary _ _ _ ih1 ih2 =>
    simp only [Node.noFn, Src.noFn, Bool.and_eq_true] at hd
    exact hR.trans (ih1 hd.1) (ih2 hd.2)
  | pipeline _ _ ih1 ih2 =>
    simp only [Node.noFn, Src.noFn, Bool.and_eq_true] at hd
    exact hR.trans (ih1 hd.2) (ih2 hd.1)
  | assignIndex _ _ _ ih1 ih2 ih3 | updateIndex _ _ _ _ ih1 ih2 ih3 | ifExpr _ _ _ ih1 ih2 ih3 =>
    simp only [Node.noFn, Src.noFn, Bool.and_eq_true] at hd
    exact hR.trans (ih1 hd.1.1) (hR.trans (ih2 hd.1.2) (ih3 hd.2))
  | «is» _ _ ht ih => exact hR.trans (ih (by simpa [Node.noFn, Src.noFn] using hd)) (ht.srel hR)
  | isNullable _ _ _ ht ih1 ih2 =>
    have hd' := (by simpa [Node.noFn, Src.noFn] using hd)
    exact hR.trans (ih1 hd') (hR.trans (ih2 hd') (ht.srel hR))
  | varDecl _ hl ht ih => exact hR.trans (ih (by simpa [Node.noFn, Src.noFn] using hd)) (hR.trans (hR.addLocal hl) (ht.srel hR))
  | varDecls _ hl ih => exact hR.trans (ih (by simpa [Node.noFn, Src.noFn] using hd)) (hR.addLocals hl)
  | anonFn | fnDecl | opDecl | classDecl | importItems | importModule | exportDecl | baseSome | baseNone | clsNil | clsFn | clsOp
  | fnBody => cases hd
  | loop h0 _ hp ih => exact hR.scope h0 (ih (by simpa [Node.noFn, Src.noFn] using hd)) hp
  | whileLoop h0 _ _ hp ih1 ih2 =>
    simp only [Node.noFn, Src.noFn, Bool.and_eq_true] at hd
    exact hR.scope h0 (hR.trans (ih1 hd.1) (ih2 (by simp [Node.noFn, hd.2]))) hp
  | rangeLoop _ _ _ h0 hl _ hp ih1 ih2 ih3 =>
    simp only [Node.noFn, Src.noFn, Bool.and_eq_true] at hd
    exact hR.trans (ih1 hd.1.2) (hR.trans (ih2 hd.1.1) (hR.scope h0 (hR.trans (hR.addLocal hl) (ih3 hd.2)) hp))
  | forLoop _ _ h0 hl _ hp ih1 ih2 =>
    simp only [Node.noFn, Src.noFn, Bool.and_eq_true] at hd
    exact hR.trans (ih1 hd.1) (hR.scope h0 (hR.trans (hR.addLocal hl) (ih2 hd.2)) hp)
  | returnValue _ _ _ hr ih => exact hR.trans (ih (by simpa [Node.noFn, Src.noFn, Src.noFnOpt] using hd)) (hr.srel hR)
  | returnUnit _ _ hr => exact hr.srel hR
  | returnSelf _ _ hr => exact hr.srel hR
  | chain he _ h0 _ _ h1 ih => exact hR.trans (hR.setCallDepth h0) (hR.trans (ih hd) (hR.setCallDepth h1))
  | errProp _ _ _ hr ih => exact hR.trans (ih (by simpa [Node.noFn, Src.noFn] using hd)) (hr.srel hR)
  | superAccess _ _ h1 h2 => exact hR.trans (h1.srel hR) (h2.srel hR)
  | call _ _ hg ih1 ih2 =>
    simp only [Node.noFn, Src.noFn, Bool.and_eq_true] at hd
    exact hg ▸ hR.trans (ih1 hd.1) (hR.trans (ih2 hd.2) (hR.setTemps _ _))
  | superCall _ _ hi ih =>
    exact hR.trans (ih (by simpa [Node.noFn, Src.noFn] using hd)) (hR.trans (hR.setTemps _ _) (hi.srel hR))
  | index _ _ h0 _ h3 hg ih1 ih2 =>
    simp only [Node.noFn, Src.noFn, Bool.and_eq_true] at hd
    exact hg ▸ hR.trans (ih1 hd.1) (hR.trans (hR.setCallDepth h0) (hR.trans (hR.setTemps _ _) (hR.trans (ih2 hd.2)
      (hR.trans (hR.setTemps _ _) (hR.setCallDepth h3)))))
  | seqCons _ _ ih1 ih2 =>
    simp only [Node.noFn, Src.noFnAny, Bool.and_eq_true] at hd
    exact hR.trans (ih1 hd.1.1) (ih2 (by simp [Node.noFn, hd.1.2, hd.2]))
  | itemsCons _ _ ih1 ih2 =>
    simp only [Node.noFn, Src.noFnAny, Bool.and_eq_true] at hd
    exact hR.trans (ih1 hd.1) (ih2 hd.2)
  | argsCons _ h0 _ h2 _ ih1 ih2 =>
    simp only [Node.noFn, Src.noFnAny, Bool.and_eq_true] at hd
    exact hR.trans (hR.setCallDepth h0) (hR.trans (hR.setTemps _ _) (hR.trans (ih1 hd.1) (hR.trans (hR.setCallDepth h2) (ih2 hd.2))))
  | fieldsCons _ _ ih1 ih2 =>
    simp only [Node.noFn, Src.noFnField, Bool.and_eq_true] at hd
    exact hR.trans (ih1 hd.1) (ih2 hd.2)
  | block h0 hs _ hp ih => exact hR.scope h0 (hR.trans (hR.scanDecls hs) (ih hd)) hp

/-! ## Locations of variables -/

/-- The locations that an environment of the evaluator gives to the variables of a function. -/
def Matches (g : Env) (seg : Src.SEnv) : Prop := seg.map (·.1) = g.vars.map (·.1)

/-- Likewise for the enclosing functions. -/
inductive OuterMatches : Env → List Src.SEnv → Prop where
  | nil : OuterMatches [] []
  | cons {c r seg segs} (h : Matches (c :: r) seg) (hr : OuterMatches r segs) : OuterMatches (c :: r) (seg :: segs)

theorem Matches.length {g : Env} {seg : Src.SEnv} (h : Matches g seg) : seg.length = g.vars.length := by
  simpa using congrArg List.length h

theorem Matches.congr {g g' : Env} {seg : Src.SEnv} (h : Matches g seg) (hv : g'.view = g.view) : Matches g' seg := by
  unfold Matches; rw [h, Env.vars_view g, Env.vars_view g', hv]

theorem OuterMatches.mono {g g' : Env} {segs : List Src.SEnv} (h : OuterMatches g segs) (hle : OuterLe g g') :
    OuterMatches g' segs := by
  induction h generalizing g' with
  | nil => cases hle; exact .nil
  | cons h _ ih =>
    cases hle with
    | cons hc hr => exact .cons (h.congr hc.view) (ih hr)

/-- The location of the variable in a slot. -/
def slotLoc (seg : Src.SEnv) (s : Nat) : Option Nat := (seg.reverse[s]?).map (·.2)

theorem slotLoc_append (ext seg : Src.SEnv) (s : Nat) (h : s < seg.length) : slotLoc (ext ++ seg) s = slotLoc seg s := by
  unfold slotLoc
  rw [List.reverse_append, List.getElem?_append_left (by simpa using h)]

theorem slotLoc_cons (x : String) (l : Nat) (seg : Src.SEnv) : slotLoc ((x, l) :: seg) seg.length = some l := by
  unfold slotLoc
  rw [List.reverse_cons, List.getElem?_append_right (by simp)]
  simp

theorem slotLoc_lt {seg : Src.SEnv} {s l : Nat} (h : slotLoc seg s = some l) : s < seg.length := by
  unfold slotLoc at h
  simp only [Option.map_eq_some_iff] at h
  obtain ⟨a, h, -⟩ := h
  simpa using (List.getElem?_eq_some_iff.1 h).1

theorem slotLoc_mem {seg : Src.SEnv} {s l : Nat} (h : slotLoc seg s = some l) : ∃ x, (x, l) ∈ seg := by
  unfold slotLoc at h
  simp only [Option.map_eq_some_iff] at h
  obtain ⟨⟨x, l'⟩, h, rfl⟩ := h
  exact ⟨x, by simpa using List.mem_of_getElem? h⟩

theorem slotLoc_of_lt {seg : Src.SEnv} {s : Nat} (h : s < seg.length) : ∃ l, slotLoc seg s = some l := by
  unfold slotLoc
  rw [List.getElem?_eq_getElem (by simpa using h)]
  exact ⟨_, rfl⟩

theorem slotLoc_of_mem {seg : Src.SEnv} {x : String} {l : Nat} (h : (x, l) ∈ seg) : ∃ s, slotLoc seg s = some l := by
  obtain ⟨s, hs, he⟩ := List.getElem_of_mem (List.mem_reverse.2 h)
  exact ⟨s, by unfold slotLoc; rw [List.getElem?_eq_getElem hs, he]; rfl⟩

theorem slotLoc_append_inv {ext seg : Src.SEnv} {s l : Nat} (h : slotLoc (ext ++ seg) s = some l) :
    slotLoc seg s = some l ∨ (seg.length ≤ s ∧ ∃ x, (x, l) ∈ ext) := by
  by_cases hs : s < seg.length
  · rw [slotLoc_append _ _ _ hs] at h; exact .inl h
  · refine .inr ⟨by omega, ?_⟩
    unfold slotLoc at h
    rw [List.reverse_append, List.getElem?_append_right (by simp; omega)] at h
    simp only [Option.map_eq_some_iff] at h
    obtain ⟨⟨x, l'⟩, h, rfl⟩ := h
    exact ⟨x, by simpa using List.mem_of_getElem? h⟩

/-- The slot and the location of a name belong together. -/
theorem lookup_loc {vs : List (String × Nat)} {n : Nat} (hs : vs.map (·.2) = (List.range n).reverse) {seg : Src.SEnv}
    (hm : seg.map (·.1) = vs.map (·.1)) (x : String) :
    (vs.lookup x = none ∧ seg.lookup x = none) ∨
      ∃ s l, vs.lookup x = some s ∧ seg.lookup x = some l ∧ slotLoc seg s = some l := by
  induction vs generalizing n seg with
  | nil =>
    cases seg with
    | nil => exact .inl ⟨rfl, rfl⟩
    | cons _ _ => cases hm
  | cons v vs ih =>
    cases seg with
    | nil => cases hm
    | cons p seg =>
      obtain ⟨y, s⟩ := v
      obtain ⟨y', l⟩ := p
      simp only [List.map_cons, List.cons.injEq] at hm
      obtain ⟨rfl, hm⟩ := hm
      cases n with
      | zero => cases hs
      | succ n =>
        rw [range_reverse_succ] at hs
        simp only [List.map_cons, List.cons.injEq] at hs
        obtain ⟨rfl, hs⟩ := hs
        have hl : seg.length = s := by
          have h1 := congrArg List.length hs
          have h2 := congrArg List.length hm
          simp at h1 h2
          omega
        simp only [List.lookup_cons]
        by_cases hx : x = y'
        · subst hx
          simp only [beq_self_eq_true]
          exact .inr ⟨s, l, rfl, rfl, hl ▸ slotLoc_cons x l seg⟩
        · rw [beq_eq_false_iff_ne.2 hx]
          rcases ih hs hm with h | ⟨s', l', h1, h2, h3⟩
          · exact .inl h
          · refine .inr ⟨s', l', h1, h2, ?_⟩
            rw [← h3]
            exact slotLoc_append [(y', l)] seg s' (slotLoc_lt h3)

theorem Env.vars_slots {c : Ctx} {r : Env} (h : ScopeInv c.scopes) :
    (Env.vars (c :: r)).map (·.2) = (List.range (totalSlots c.scopes.stack)).reverse := by
  rw [← h.slots]
  simp only [Env.vars, List.map_map]
  rfl

/-- The location of a local variable. -/
theorem Matches.lookup_some {g : Env} {seg : Src.SEnv} (inv : StackInv g) (hm : Matches g seg) {x : String} {v : ScopeVar}
    (h : g.lookup x = some v) : ∃ l, seg.lookup x = some l ∧ slotLoc seg v.slot = some l := by
  cases g with
  | nil => cases h
  | cons c r =>
    have hv := lookup_vars (c :: r) x
    rw [h] at hv
    rcases lookup_loc (Env.vars_slots inv.2.1) hm x with ⟨h1, -⟩ | ⟨s, l, h1, h2, h3⟩
    · rw [h1] at hv; cases hv
    · rw [h1] at hv
      cases hv
      exact ⟨l, h2, h3⟩

theorem Matches.lookup_none {g : Env} {seg : Src.SEnv} (hm : Matches g seg) {x : String} (h : g.lookup x = none) :
    seg.lookup x = none := by
  have hv := lookup_vars g x
  rw [h] at hv
  have hn : x ∉ seg.map (·.1) := by
    rw [hm]
    intro hx
    obtain ⟨p, hp, rfl⟩ := List.mem_map.1 hx
    have := List.lookup_eq_none_iff.1 hv.symm p hp
    simp at this
  rw [List.lookup_eq_none_iff]
  intro p hp
  simp only [bne_iff_ne, ne_eq, beq_eq_false_iff_ne]
  rintro rfl
  exact hn (List.mem_map_of_mem hp)

/-- The location of a captured variable. -/
def locOf : List Ctx → List Src.SEnv → UpvalueDescriptor → Option Nat
  | _ :: _, seg :: _, .parentLocal s _ => slotLoc seg s
  | c :: r, _ :: segs, .outer j _ =>
    match c.upvalues[j]? with
    | some d => locOf r segs d
    | none => none
  | _, _, _ => none

theorem prefix_getElem? {α : Type} {a b : List α} (h : a <+: b) {i : Nat} {x : α} (hi : a[i]? = some x) : b[i]? = some x := by
  obtain ⟨t, rfl⟩ := h
  rw [List.getElem?_append_left (List.getElem?_eq_some_iff.1 hi).1, hi]

theorem locOf_mono {r r' : Env} (h : OuterLe r r') {segs : List Src.SEnv} {d : UpvalueDescriptor} {l : Nat}
    (hl : locOf r segs d = some l) : locOf r' segs d = some l := by
  induction h generalizing segs d with
  | nil => exact hl
  | cons hc _ ih =>
    cases segs with
    | nil => cases d <;> cases hl
    | cons seg segs =>
      cases d with
      | parentLocal s m => exact hl
      | outer j m =>
        simp only [locOf] at hl ⊢
        split at hl
        · rename_i d hd
          rw [prefix_getElem? hc.upvalues hd]
          exact ih hl
        · cases hl

theorem addUpvalue_get (c : Ctx) (d : UpvalueDescriptor) : (c.addUpvalue d).2.upvalues[(c.addUpvalue d).1]? = some d :=
  (addUpvalue_spec c d _ _ rfl).2.2.1

/-- The location of a captured variable is that of the name. -/
theorem resolve_loc (x : String) (cur : Ctx) (rest : Env) (segs : List Src.SEnv) (inv : StackInv rest)
    (hm : OuterMatches rest segs) (i : Nat) (st' : Env) (h : resolveUpvalue x (cur :: rest) = some (i, st')) :
    ∃ cur' rest' d l, st' = cur' :: rest' ∧ cur'.upvalues[i]? = some d ∧ locOf rest' segs d = some l ∧
      segs.flatten.lookup x = some l := by
  induction rest generalizing cur segs i st' with
  | nil => cases h
  | cons parent rest ih =>
    cases hm with
    | @cons _ _ seg segs hseg hsegs =>
      unfold resolveUpvalue at h
      cases hl : parent.scopes.local? x with
      | some v =>
        rw [hl] at h
        simp only at h
        cases h
        obtain ⟨l, h1, h2⟩ := hseg.lookup_some inv (x := x) (v := v) hl
        refine ⟨_, _, _, l, rfl, addUpvalue_get _ _, h2, ?_⟩
        rw [List.flatten_cons, List.lookup_append, h1]
        rfl
      | none =>
        rw [hl] at h
        simp only at h
        cases hrec : resolveUpvalue x (parent :: rest) with
        | none => rw [hrec] at h; cases h
        | some r =>
          obtain ⟨o, pr⟩ := r
          rw [hrec] at h
          obtain ⟨p', r', d, l, rfl, h1, h2, h3⟩ := ih parent segs inv.2.2.2 hsegs o pr hrec
          simp only at h
          cases h
          refine ⟨_, _, _, l, rfl, addUpvalue_get _ _, ?_, ?_⟩
          · simp only [locOf, h1]; exact h2
          · rw [List.flatten_cons, List.lookup_append, hseg.lookup_none (x := x) hl]
            exact h3

theorem resolve_loc_none (x : String) (cur : Ctx) (rest : Env) (segs : List Src.SEnv) (hm : OuterMatches rest segs)
    (h : resolveUpvalue x (cur :: rest) = none) : segs.flatten.lookup x = none := by
  induction rest generalizing cur segs with
  | nil => cases hm; rfl
  | cons parent rest ih =>
    cases hm with
    | @cons _ _ seg segs hseg hsegs =>
      unfold resolveUpvalue at h
      cases hl : parent.scopes.local? x with
      | some v => rw [hl] at h; cases h
      | none =>
        rw [hl] at h
        simp only at h
        cases hrec : resolveUpvalue x (parent :: rest) with
        | none =>
          rw [List.flatten_cons, List.lookup_append, hseg.lookup_none (x := x) hl]
          exact ih parent segs hsegs hrec
        | some r =>
          obtain ⟨o, pr⟩ := r
          rw [hrec] at h
          obtain ⟨c1, r1, c1', r1', h1, rfl, -⟩ := resolve_outer _ _ _ _ hrec
          cases h

theorem locOf_mem {r : Env} {segs : List Src.SEnv} {d : UpvalueDescriptor} {l : Nat} (h : locOf r segs d = some l) :
    ∃ x, (x, l) ∈ segs.flatten := by
  induction r generalizing segs d with
  | nil => cases d <;> cases h
  | cons c r ih =>
    cases segs with
    | nil => cases d <;> cases h
    | cons seg segs =>
      cases d with
      | parentLocal s m =>
        obtain ⟨x, hx⟩ := slotLoc_mem h
        exact ⟨x, List.mem_flatten.2 ⟨seg, List.mem_cons_self, hx⟩⟩
      | outer j m =>
        simp only [locOf] at h
        split at h
        · obtain ⟨x, hx⟩ := ih h
          exact ⟨x, by rw [List.flatten_cons]; exact List.mem_append_right _ hx⟩
        · cases h

/-- Every descriptor of a function denotes a location. -/
theorem locOf_desc {r : Env} {segs : List Src.SEnv} (inv : StackInv r) (hm : OuterMatches r segs) {d : UpvalueDescriptor}
    (hd : DescOk d r) : ∃ l, locOf r segs d = some l := by
  induction hm generalizing d with
  | nil =>
    cases d with
    | parentLocal s m => obtain ⟨p, ps, h, -⟩ := hd; cases h
    | outer j m => obtain ⟨p, ps, h, -⟩ := hd; cases h
  | @cons c r seg segs hseg hsegs ih =>
    cases d with
    | parentLocal s m =>
      obtain ⟨p, ps, h, v, hv, rfl, -⟩ := hd
      cases h
      refine slotLoc_of_lt ?_
      rw [hseg.length]
      have hm : v.slot ∈ (visible c.scopes.stack).map (·.slot) := List.mem_map_of_mem hv
      rw [vars_length inv rfl]
      rw [inv.2.1.slots] at hm
      exact List.mem_range.1 (List.mem_reverse.1 hm)
    | outer j m =>
      obtain ⟨p, ps, h, d', hd', -⟩ := hd
      cases h
      simp only [locOf, hd']
      exact ih inv.2.2.2 (inv.2.2.1 d' (List.mem_of_getElem? hd'))

end Dice
