import Verif.Static
import Verif.GenEnv
import Verif.CompileProps

/-!
# The static environment of the compiler follows lexical scoping

Forgetting slots, captures and bytes, the environment in which the compiler compiles a part of the program is the place
of that part (`Gen.place`), and every part of an accepted program is compiled at its place (`Gen.occurs`).
-/

namespace Dice

def ScopeVar.toName (v : ScopeVar) : Name := ⟨v.name, v.state⟩

def ScopeContext.place (sc : ScopeContext) : BlockSite :=
  { depth := sc.depth, loop := if sc.kind = .loop then some sc.entryPoint.isSome else none, names := sc.variables.map ScopeVar.toName }

def Ctx.place (c : Ctx) : FnSite := ⟨c.kind, c.scopes.stack.map ScopeContext.place⟩

def Env.place (g : Env) : Site := g.map Ctx.place

/-! ## The operations -/

theorem place_pushScope {g g' : Env} {k : ScopeKind} {e : Bool} (h : g.pushScope k e = some g') :
    g'.place = g.place.enter (if k = .loop then some e else none) := by
  match g, h with
  | c :: rest, h =>
    cases h
    have : (c.scopes.stack.map ScopeContext.place).length = c.scopes.stack.length := List.length_map ..
    show _ :: _ = _ :: _
    unfold Ctx.place ScopeStack.pushScope
    dsimp only
    rw [this]
    cases k <;> cases e <;> rfl

theorem place_popScope {g g' : Env} {vars : List ScopeVar} (h : g.popScope = some (vars, g')) :
    g'.place = g.place.leave := by
  match g, h with
  | c :: rest, h =>
    obtain ⟨k, a, u, ⟨st, n⟩, t⟩ := c
    cases st with
    | nil => cases h
    | cons s ss => cases h; rfl

theorem place_addLocal {g g' : Env} {x : String} {st : VarState} {slot : Nat} (h : g.addLocal x st = some (slot, g')) :
    g'.place = g.place.declare x st := by
  match g, h with
  | c :: rest, h =>
    obtain ⟨k, a, u, ⟨sc, n⟩, t⟩ := c
    cases sc with
    | nil => cases h
    | cons s ss => cases h; rfl

theorem place_addLocals {xs : List String} {g g' : Env} {ls : List (String × Nat)}
    (h : g.addLocals xs = some (ls, g')) : g'.place = g.place.declareAll xs := by
  induction xs generalizing ls g with
  | nil => cases h; rfl
  | cons x xs ih =>
    unfold Env.addLocals at h
    split at h
    · cases h
    · rename_i hl
      split at h
      · cases h
      · rename_i hr
        cases h
        rw [ih hr, place_addLocal hl]
        rfl

theorem place_setTemps (g : Env) (n : Nat) : (g.setTemps n).place = g.place := by cases g <;> rfl

theorem place_setCallDepth {g g' : Env} {d : Nat} (h : g.setCallDepth d = some g') : g'.place = g.place := by
  match g, h with
  | c :: rest, h =>
    obtain ⟨k, a, u, ⟨sc, n⟩, t⟩ := c
    cases sc with
    | nil => cases h
    | cons s ss => cases h; rfl

theorem place_modifyVars (x : String) (st : VarState) (vs : List ScopeVar) :
    (ScopeStack.modifyVars x (fun v => { v with state := st }) vs).map ScopeVar.toName =
      Site.markNames x st (vs.map ScopeVar.toName) := by
  induction vs with
  | nil => rfl
  | cons v vs ih =>
    simp only [ScopeStack.modifyVars, List.map_cons, Site.markNames]
    by_cases h : v.name = x
    · rw [if_pos (by simpa using h), if_pos (by simpa [ScopeVar.toName] using h)]
      rfl
    · rw [if_neg (by simpa using h), if_neg (by simpa [ScopeVar.toName] using h)]
      simp only [List.map_cons, ih]

theorem place_modifyScopes (x : String) (st : VarState) (cs : List ScopeContext) :
    (ScopeStack.modifyScopes x (fun v => { v with state := st }) cs).map ScopeContext.place =
      Site.markBlocks x st (cs.map ScopeContext.place) := by
  induction cs with
  | nil => rfl
  | cons c cs ih =>
    have hany : (c.place.names.any fun n => n.name == x) = c.variables.any (fun v => v.name == x) := by
      simp only [ScopeContext.place, List.any_map]; rfl
    simp only [ScopeStack.modifyScopes, List.map_cons, Site.markBlocks, hany]
    by_cases h : (c.variables.any fun v => v.name == x) = true
    · rw [if_pos h, if_pos h]
      simp only [List.map_cons, ScopeContext.place, place_modifyVars]
    · rw [if_neg h, if_neg h]
      simp only [List.map_cons, ih]

theorem place_setState (g : Env) (x : String) (st : VarState) : (g.setState x st).place = g.place.mark x st := by
  cases g with
  | nil => rfl
  | cons c rest =>
    show _ :: _ = _
    simp only [Ctx.place, ScopeStack.modifyLocal, place_modifyScopes]
    rfl

theorem place_captureVars (x : String) (vs : List ScopeVar) :
    (ScopeStack.modifyVars x (fun v => { v with isCaptured := true }) vs).map ScopeVar.toName = vs.map ScopeVar.toName := by
  induction vs with
  | nil => rfl
  | cons v vs ih =>
    simp only [ScopeStack.modifyVars]
    split
    · rfl
    · simp only [List.map_cons, ih]

theorem place_captureScopes (x : String) (cs : List ScopeContext) :
    (ScopeStack.modifyScopes x (fun v => { v with isCaptured := true }) cs).map ScopeContext.place =
      cs.map ScopeContext.place := by
  induction cs with
  | nil => rfl
  | cons c cs ih =>
    simp only [ScopeStack.modifyScopes]
    split
    · simp only [List.map_cons, ScopeContext.place, place_captureVars]
    · simp only [List.map_cons, ih]

theorem place_addUpvalue (c : Ctx) (d : UpvalueDescriptor) : (c.addUpvalue d).2.place = c.place := by
  unfold Ctx.addUpvalue
  split <;> rfl

theorem place_resolve {g g' : Env} {x : String} {i : Nat} (h : resolveUpvalue x g = some (i, g')) :
    g'.place = g.place := by
  induction g generalizing i g' with
  | nil => cases h
  | cons cur rest ih =>
    cases rest with
    | nil => cases h
    | cons parent rest =>
      unfold resolveUpvalue at h
      cases hl : parent.scopes.local? x with
      | some v =>
        rw [hl] at h
        simp only [Option.some.injEq, Prod.mk.injEq] at h
        rw [← h.2]
        show _ :: _ :: _ = _ :: _ :: _
        rw [place_addUpvalue]
        simp only [Ctx.place, ScopeStack.modifyLocal, place_captureScopes]
      | none =>
        rw [hl] at h
        simp only at h
        cases hr : resolveUpvalue x (parent :: rest) with
        | none => rw [hr] at h; cases h
        | some r =>
          obtain ⟨o, pr⟩ := r
          have := ih hr
          rw [hr] at h
          cases pr with
          | nil => cases h
          | cons p' r' =>
            simp only [Option.some.injEq, Prod.mk.injEq] at h
            rw [← h.2]
            show _ :: _ = _ :: _
            rw [place_addUpvalue]
            exact congrArg _ this

theorem IdentGen.place {g g' : Env} {x : String} {i : Instr} (h : IdentGen g x i g') : g'.place = g.place := by
  cases h with
  | «local» => rfl
  | captured _ hr => exact place_resolve hr
  | global => rfl

theorem TypeGen.place {g g' : Env} {slot : Nat} {t : Option TypeAnn} {c : Code} (h : TypeGen g slot t c g') :
    g'.place = g.place := by
  cases h with
  | none => rfl
  | some h => exact h.place

theorem ReturnGen.place {g g' : Env} {c : Code} (h : ReturnGen g c g') : g'.place = g.place := by
  cases h with
  | plain => rfl
  | typed _ _ h => exact h.place

theorem ParamsGen.place {g g' : Env} {args : List FnArg} {c : Code} (h : ParamsGen g args c g') :
    g'.place = g.place.declareAll (args.map (·.name)) := by
  induction h with
  | nil => rfl
  | cons hl ht _ ih => rw [ih, ht.place, place_addLocal hl]; rfl

theorem ArgsGen.place {g g' : Env} {k : FnKind} {args : List FnArg} {c : Code} (h : ArgsGen g k args c g') :
    g'.place = declareParams k args g.place := by
  cases h with
  | noReceiver hk hl hp =>
    rw [hp.place, place_addLocal hl]
    rcases hk with rfl | rfl <;> rfl
  | receiver hk hp =>
    rw [hp.place]
    cases k with
    | function => simp at hk
    | staticMethod => simp at hk
    | method => rfl
    | constructor => rfl

theorem place_scanDecl (e : Expr) {g g' : Env} (h : scanDecl e g = some g') : g'.place = hoistOne e g.place := by
  have hd : ∀ {g g' : Env} {x : String} {st : VarState}, (g.addLocal x st).map (·.2) = some g' →
      g'.place = g.place.declare x st := by
    intro g g' x st h
    simp only [Option.map_eq_some_iff] at h
    obtain ⟨⟨slot, g2⟩, h, rfl⟩ := h
    exact place_addLocal h
  match e with
  | .fnDecl _ _ _ _ => unfold scanDecl at h; rw [hoistOne]; exact hd h
  | .classDecl _ _ _ => unfold scanDecl at h; rw [hoistOne]; exact hd h
  | .exportDecl e => unfold scanDecl at h; rw [hoistOne]; exact place_scanDecl e h
  | .ident _ | .unit | .null | .bool _ | .int _ | .float _ | .str _ | .anonFn _ _ _ | .object _ | .list _
  | .assign _ _ _ | .unary _ _ | .binary _ _ _ | .is _ _ | .varDecl _ _ _ _ | .opDecl _ _ _ _ | .importDecl _ _ _
  | .ifExpr _ _ _ | .loop _ | .whileLoop _ _ | .forLoop _ _ _ | .break_ | .continue_ | .block _ _ | .return_ _
  | .nullProp _ | .errProp _ | .field _ _ | .superAccess _ _ | .call _ _ | .superCall _ | .index _ _ => cases h; rfl

theorem place_scanDecls {es : List Expr} {g g' : Env} (h : scanDecls es g = some g') : g'.place = hoist es g.place := by
  induction es generalizing g with
  | nil => cases h; rfl
  | cons e es ih =>
    unfold scanDecls at h
    split at h
    · cases h
    · rename_i hd
      rw [ih h, place_scanDecl e hd]
      rfl

theorem FnEndGen.place {g g' : Env} {k : FnKind} {c : Code} (h : FnEndGen g k c g') : g'.place = g.place := by
  cases h with
  | constructor => rfl
  | other _ h => exact h.place

theorem findName_map (x : String) (vs : List ScopeVar) :
    findName x (vs.map ScopeVar.toName) = (vs.find? (fun v => v.name == x)).map ScopeVar.toName := by
  unfold findName
  rw [List.find?_map]
  rfl

theorem place_names (c : Ctx) : c.place.names = (ScopeStack.visible c.scopes.stack).map ScopeVar.toName := by
  simp only [FnSite.names, Ctx.place, ScopeStack.visible, List.flatMap_map, List.map_flatMap]
  rfl

theorem lookupHere_place (g : Env) (x : String) : g.place.lookupHere x = (g.lookup x).map ScopeVar.toName := by
  cases g with
  | nil => rfl
  | cons c rest =>
    show findName x c.place.names = _
    rw [place_names, findName_map]
    rfl

/-! ## The outer functions -/

theorem tailRel : EnvRel fun g g' => g'.place.tail = g.place.tail where
  refl _ := rfl
  trans h1 h2 := h2.trans h1
  pushScope {g g' k e} h := by
    rw [place_pushScope h]
    cases g <;> rfl
  popScope {g g' vars} h := by
    rw [place_popScope h]
    cases g <;> rfl
  addLocal {g g' x st slot} h := by
    rw [place_addLocal h]
    cases g <;> rfl
  setState g x st := by
    rw [place_setState]
    cases g <;> rfl
  setTemps g n := by rw [place_setTemps]
  setCallDepth {g g' d} h := by rw [place_setCallDepth h]
  resolve {g g' x i} h := by rw [place_resolve h]
  fn {g g' fn k} h := by
    have h : g'.place = g.place := h
    rw [h]

theorem place_fn {g g' : Env} {fn : Ctx} {k : CompilerKind} {nd : Node} {c : Code}
    (h : Gen (g.pushFn k) nd c (fn :: g')) : g'.place = g.place := h.rel tailRel

/-! ## The place behind a piece of syntax -/

def Node.after : Node → Site → Site
  | .expr e, p => afterExpr e p
  | .link e, p => afterExpr e p
  | .seq es t, p => afterOpt t (afterAll es p)
  | .els t, p => afterOpt t p
  | .items es, p => afterAll es p
  | .args es, p => afterAll es p
  | .fields fs, p => afterFields fs p
  | .base b, p => afterOpt b p
  | .cls _ _ _, p => p
  | .block _ es t, p => (afterOpt t (afterAll es (hoist (es ++ t.toList) (p.enter none)))).leave
  | .fnBody k as es t, p =>
    (afterOpt t (afterAll es (hoist (es ++ t.toList) (declareParams k as (p.enter none))))).leave

theorem Gen.place {g g' : Env} {nd : Node} {c : Code} (h : Gen g nd c g') : g'.place = nd.after g.place := by
  induction h with
  | ident h => exact h.place
  | unit => rfl
  | null => rfl
  | bool => rfl
  | int => rfl
  | float => rfl
  | str => rfl
  | anonFn hb _ _ => exact place_fn hb
  | object _ ih => exact ih
  | list _ ih => exact ih
  | assignLocal _ _ _ ih => exact ih
  | updateLocal _ _ _ _ ih => exact ih
  | assignCaptured _ hr _ _ _ ih => rw [ih, place_resolve hr]; rfl
  | updateCaptured _ hr _ _ _ _ ih => rw [ih, place_resolve hr]; rfl
  | assignField _ _ ih1 ih2 => rw [ih2, ih1]; rfl
  | updateField _ _ _ ih1 ih2 => rw [ih2, ih1]; rfl
  | assignIndex _ _ _ ih1 ih2 ih3 => rw [ih3, ih2, ih1]; rfl
  | updateIndex _ _ _ _ ih1 ih2 ih3 => rw [ih3, ih2, ih1]; rfl
  | unary _ ih => exact ih
  | and _ _ ih1 ih2 => rw [ih2, ih1]; rfl
  | or _ _ ih1 ih2 => rw [ih2, ih1]; rfl
  | pipeline _ _ ih1 ih2 => rw [ih2, ih1]; rfl
  | coalesce _ _ ih1 ih2 => rw [ih2, ih1]; rfl
  | @binary _ _ _ op _ _ _ _ _ ho _ _ ih1 ih2 =>
    rw [ih2, ih1]
    cases op <;> first | rfl | cases ho
  | «is» hn _ ht ih =>
    rw [ht.place, ih]
    simp only [Node.after, afterExpr, hn]
    rfl
  | isNullable hn _ _ ht ih1 ih2 =>
    rw [ht.place, ih2, ih1]
    simp only [Node.after, afterExpr, hn, if_true]
  | varDecl _ hl ht ih => rw [ht.place, place_addLocal hl, ih]; rfl
  | varDecls _ hl ih => rw [place_addLocals hl, ih]; rfl
  | fnDecl _ hb _ _ _ _ => rw [place_setState, place_fn hb]; rfl
  | opDecl _ hb _ _ => exact place_fn hb
  | @classDecl g g1 g2 g3 g4 g5 g' name base items cb superSlot v ci vars h0 hb hsup hv hs hg hi hp ihb ihi =>
    have h3 : g3.place = (afterOpt base (g.place.enter none)).declare nameSuper (.local true true) := by
      rw [place_addLocal hsup, ihb, place_pushScope h0]; rfl
    have h4 : g4.place = if (g3.place.lookupHere name).map (·.state) = some (.class false)
        then g3.place.mark name (.class true) else g3.place := by
      rw [hg, lookupHere_place, hv]
      by_cases hc : v.state = .class false
      · rw [if_pos hc, if_pos (by simpa [ScopeVar.toName] using hc), place_setState]
      · rw [if_neg hc, if_neg (by simpa [ScopeVar.toName] using hc)]
    have h5 : g5.place = g4.place := ihi
    rw [place_popScope hp, h5, h4, h3]
    rfl
  | importItems hl => rw [place_addLocals hl]; rfl
  | importModule hl hm => rw [place_addLocal hm, place_addLocals hl]; rfl
  | exportDecl _ _ _ _ _ _ ih => exact ih
  | ifExpr _ _ _ ih1 ih2 ih3 => rw [ih3, ih2, ih1]; rfl
  | loop h0 _ hp ih => rw [place_popScope hp, ih, place_pushScope h0]; rfl
  | whileLoop h0 _ _ hp ih1 ih2 => rw [place_popScope hp, ih2, ih1, place_pushScope h0]; rfl
  | rangeLoop hop _ _ h0 hl _ hp ih1 ih2 ih3 =>
    rw [place_popScope hp, ih3, place_addLocal hl, place_pushScope h0, ih2, ih1]
    rcases hop with rfl | rfl <;> rfl
  | @forLoop _ _ _ _ _ _ x source body _ _ _ _ hns _ h0 hl _ hp ih1 ih2 =>
    rw [place_popScope hp, ih2, place_addLocal hl, place_pushScope h0, ih1]
    have : ∀ p, afterExpr (.forLoop x source body) p =
        (afterExpr body (((afterExpr source p).enter (some false)).declare x (.local false true))).leave := by
      intro p
      cases source with
      | binary op a b => cases op <;> first | rfl | exact absurd rfl (hns a b).1 | exact absurd rfl (hns a b).2
      | _ => rfl
    exact (this _).symm
  | break_ => rfl
  | continue_ => rfl
  | blockExpr _ ih => exact ih
  | returnValue _ _ _ hr ih => rw [hr.place, ih]; rfl
  | returnUnit _ _ hr => rw [hr.place]; rfl
  | returnSelf _ _ hr => rw [hr.place]; rfl
  | chain he hd h0 _ hd' h1 ih => rw [place_setCallDepth h1, ih, place_setCallDepth h0]; rfl
  | nullProp _ ih => exact ih
  | errProp _ _ _ hr ih => rw [hr.place, ih]; rfl
  | field _ ih => exact ih
  | superAccess _ _ h1 h2 => rw [h2.place, h1.place]; rfl
  | call _ _ hg ih1 ih2 => rw [hg, place_setTemps, ih2, ih1]; rfl
  | superCall _ _ hi ih => rw [hi.place, place_setTemps, ih]; rfl
  | index _ hd h0 _ h3 hg ih1 ih2 =>
    rw [hg, place_setCallDepth h3, place_setTemps, ih2, place_setTemps, place_setCallDepth h0, ih1]; rfl
  | seqNil _ ih => exact ih
  | seqCons _ _ ih1 ih2 => rw [ih2, ih1]; rfl
  | elsSome _ ih => exact ih
  | elsNone => rfl
  | itemsNil => rfl
  | itemsCons _ _ ih1 ih2 => rw [ih2, ih1]; rfl
  | argsNil => rfl
  | argsCons hd h0 _ h2 _ ih1 ih2 => rw [ih2, place_setCallDepth h2, ih1, place_setTemps, place_setCallDepth h0]; rfl
  | fieldsNil => rfl
  | fieldsCons _ _ ih1 ih2 => rw [ih2, ih1]; rfl
  | baseSome _ ih => exact ih
  | baseNone h => rw [h.place]; rfl
  | clsNil => rfl
  | clsFn _ _ _ hb _ _ ih1 ih2 => rw [ih2]; exact place_fn hb
  | clsOp _ _ _ hb _ _ ih1 ih2 => rw [ih2]; exact place_fn hb
  | block h0 hs _ hp ih => rw [place_popScope hp, ih, place_scanDecls hs, place_pushScope h0]; rfl
  | fnBody _ h0 ha hs _ _ he hp ih =>
    simp only [Option.map_eq_some_iff] at hp
    obtain ⟨⟨vars, g6⟩, hp, rfl⟩ := hp
    rw [place_popScope hp, he.place, ih, place_scanDecls hs, ha.place, place_pushScope h0]
    rfl

/-! ## Every part is compiled at its place -/

/-- The expression `e` is compiled, in an environment at `q`. -/
def CompiledAt (q : Site) (e : Expr) : Prop := ∃ g c g', Gen g (.expr e) c g' ∧ g.place = q

theorem Gen.here {g g' : Env} {e : Expr} {c : Code} (h : Gen g (.expr e) c g') {q : Site} (hq : g.place = q) :
    CompiledAt q e := ⟨g, c, g', h, hq⟩

theorem Gen.inItems {es : List Expr} : ∀ {g g' : Env} {c : Code} {q : Site} {e : Expr}, Gen g (.items es) c g' →
    InList g.place es q e → CompiledAt q e := by
  induction es with
  | nil => intro g g' c q e _ h; cases h
  | cons d es ih =>
    intro g g' c q e h hi
    cases h with
    | itemsCons h1 h2 =>
      cases hi with
      | head => exact h1.here rfl
      | tail hi =>
        refine ih h2 ?_
        rw [h1.place]
        exact hi

theorem Gen.inArgs {es : List Expr} : ∀ {g g' : Env} {c : Code} {q : Site} {e : Expr}, Gen g (.args es) c g' →
    InList g.place es q e → CompiledAt q e := by
  induction es with
  | nil => intro g g' c q e _ h; cases h
  | cons d es ih =>
    intro g g' c q e h hi
    cases h with
    | argsCons hd h0 h1 h2 h3 =>
      have hp : ∀ n, ((Env.setTemps n _).place) = g.place := fun n => (place_setTemps _ n).trans (place_setCallDepth h0)
      cases hi with
      | head => exact h1.here (hp _)
      | tail hi =>
        refine ih h3 ?_
        rw [place_setCallDepth h2, h1.place, hp]
        exact hi

theorem Gen.inFields {fs : List (String × Expr)} : ∀ {g g' : Env} {c : Code} {q : Site} {e : Expr},
    Gen g (.fields fs) c g' → InList g.place (fs.map (·.2)) q e → CompiledAt q e := by
  induction fs with
  | nil => intro g g' c q e _ h; cases h
  | cons d fs ih =>
    intro g g' c q e h hi
    cases h with
    | fieldsCons h1 h2 =>
      cases hi with
      | head => exact h1.here rfl
      | tail hi =>
        refine ih h2 ?_
        rw [h1.place]
        exact hi

theorem Gen.inEls {t : Option Expr} {g g' : Env} {c : Code} {q : Site} {e : Expr} (h : Gen g (.els t) c g')
    (hi : InList g.place t.toList q e) : CompiledAt q e := by
  cases h with
  | elsNone => cases hi
  | elsSome h =>
    cases hi with
    | head => exact h.here rfl
    | tail hi => cases hi

theorem Gen.inSeq {es : List Expr} {t : Option Expr} : ∀ {g g' : Env} {c : Code} {q : Site} {e : Expr},
    Gen g (.seq es t) c g' → InList g.place (es ++ t.toList) q e → CompiledAt q e := by
  induction es with
  | nil =>
    intro g g' c q e h hi
    cases h with
    | seqNil h => exact h.inEls hi
  | cons d es ih =>
    intro g g' c q e h hi
    cases h with
    | seqCons h1 h2 =>
      cases hi with
      | head => exact h1.here rfl
      | tail hi =>
        refine ih h2 ?_
        rw [h1.place]
        exact hi

theorem Gen.inBlock {k : BlockKind} {es : List Expr} {t : Option Expr} {g g' : Env} {c : Code} {q : Site} {e : Expr}
    (h : Gen g (.block k es t) c g') (hi : InList (hoist (es ++ t.toList) (g.place.enter none)) (es ++ t.toList) q e) :
    CompiledAt q e := by
  cases h with
  | block h0 hs h hp =>
    refine h.inSeq ?_
    rw [place_scanDecls hs, place_pushScope h0]
    exact hi

theorem Gen.inFn {g g' : Env} {fk : FnKind} {ret : Option TypeAnn} {args : List FnArg} {body : Expr} {c : Code}
    {q : Site} {e : Expr}
    (h : Gen (g.pushFn (fnCompilerKind fk ret)) (.fnBody fk args (bodyExprs body) (bodyTrailing body)) c g')
    (hi : InFn g.place fk args ret body q e) : CompiledAt q e := by
  obtain ⟨hi⟩ := hi
  cases h with
  | fnBody _ h0 ha hs h _ _ _ =>
    refine h.inSeq ?_
    rw [place_scanDecls hs, ha.place, place_pushScope h0]
    exact hi

theorem classFnKind_memberKind {derived : Bool} {name : String} {args : List FnArg} {fk : FnKind}
    (h : classFnKind (if derived then .derived else .base) name args = some fk) : fk = memberKind derived name args := by
  unfold classFnKind at h
  cases args with
  | nil =>
    simp only [List.head?_nil, Option.filter_none] at h
    split at h
    · cases h
    · cases h; rfl
  | cons a as =>
    unfold memberKind
    by_cases ha : a.name = nameSelf
    · simp only [List.head?_cons, Option.filter_some, ha, beq_self_eq_true, if_true] at h ⊢
      split at h
      · cases h
      · by_cases hn : name = nameNew
        · simp only [hn, beq_self_eq_true, if_true] at h ⊢
          cases h; rfl
        · rw [if_neg (by simpa using hn)] at h
          rw [if_neg hn]
          cases h; rfl
    · have : (a.name == nameSelf) = false := by simpa using ha
      simp only [List.head?_cons, Option.filter_some, this] at h
      simp only
      rw [if_neg ha]
      simp only [Bool.false_eq_true, if_false] at h
      split at h
      · cases h
      · cases h; rfl

theorem Gen.inClassFn {derived : Bool} {items : List Expr} {slot : Nat} : ∀ {g g' : Env} {c : Code} {q : Site} {e : Expr}
    {fname : String} {args : List FnArg} {ret : Option TypeAnn} {body : Expr},
    Gen g (.cls (if derived then .derived else .base) items slot) c g' → .fnDecl fname args ret body ∈ items →
    InFn g.place (memberKind derived fname args) args ret body q e → CompiledAt q e := by
  induction items with
  | nil => intro _ _ _ _ _ _ _ _ _ _ h; cases h
  | cons d items ih =>
    intro g g' c q e fname args ret body h hm hi
    cases h with
    | clsFn hk hr hu hb hc h2 =>
      rcases List.mem_cons.1 hm with h | h
      · cases h
        cases classFnKind_memberKind hk
        exact hb.inFn hi
      · refine ih h2 h ?_
        rw [place_fn hb]
        exact hi
    | clsOp ha hat hu hb hc h2 =>
      rcases List.mem_cons.1 hm with h | h
      · cases h
      · refine ih h2 h ?_
        rw [place_fn hb]
        exact hi

theorem Gen.inClassOp {k : ClassKind} {items : List Expr} {slot : Nat} : ∀ {g g' : Env} {c : Code} {q : Site} {e : Expr}
    {op : OverOp} {args : List FnArg} {ret : Option TypeAnn} {body : Expr},
    Gen g (.cls k items slot) c g' → .opDecl op args ret body ∈ items →
    InFn g.place .method args ret body q e → CompiledAt q e := by
  induction items with
  | nil => intro _ _ _ _ _ _ _ _ _ _ h; cases h
  | cons d items ih =>
    intro g g' c q e op args ret body h hm hi
    cases h with
    | clsFn hk hr hu hb hc h2 =>
      rcases List.mem_cons.1 hm with h | h
      · cases h
      · refine ih h2 h ?_
        rw [place_fn hb]
        exact hi
    | clsOp ha hat hu hb hc h2 =>
      rcases List.mem_cons.1 hm with h | h
      · cases h
        exact Gen.inFn (fk := .method) hb hi
      · refine ih h2 h ?_
        rw [place_fn hb]
        exact hi

/-- The environment of the members of a class. -/
theorem place_classBody {g g1 g2 g3 g4 : Env} {name : String} {base : Option Expr} {cb : Code} {superSlot : Nat}
    {v : ScopeVar} (h0 : g.pushScope .block false = some g1) (hb : Gen g1 (.base base) cb g2)
    (hsup : g2.addLocal nameSuper (.initialized true) = some (superSlot, g3)) (hv : g3.lookup name = some v)
    (hg : g4 = if v.state = .class false then g3.setState name (.class true) else g3) {p' : Site}
    (hp : p' = (afterOpt base (g.place.enter none)).declare nameSuper (.local true true)) :
    g4.place = if (p'.lookupHere name).map (·.state) = some (.class false) then p'.mark name (.class true) else p' := by
  have h3 : g3.place = p' := by
    rw [hp, place_addLocal hsup, hb.place, place_pushScope h0]; rfl
  rw [hg, ← h3, lookupHere_place, hv]
  by_cases hc : v.state = .class false
  · rw [if_pos hc, if_pos (by simpa [ScopeVar.toName] using hc), place_setState]
  · rw [if_neg hc, if_neg (by simpa [ScopeVar.toName] using hc)]

theorem inList1 {p q : Site} {a e : Expr} (h : InList p [a] q e) : q = p ∧ e = a := by
  cases h with
  | head => exact ⟨rfl, rfl⟩
  | tail h => cases h

theorem inList_cons {p q : Site} {a e : Expr} {es : List Expr} (h : InList p (a :: es) q e) :
    (q = p ∧ e = a) ∨ InList (afterExpr a p) es q e := by
  cases h with
  | head => exact .inl ⟨rfl, rfl⟩
  | tail h => exact .inr h

theorem Gen.two {g g1 g' : Env} {a b e : Expr} {c1 c2 : Code} {q : Site} (h1 : Gen g (.expr a) c1 g1)
    (h2 : Gen g1 (.expr b) c2 g') (h : InList g.place [a, b] q e) : CompiledAt q e := by
  rcases inList_cons h with ⟨rfl, rfl⟩ | h
  · exact h1.here rfl
  · obtain ⟨rfl, rfl⟩ := inList1 h
    exact h2.here h1.place

theorem Gen.three {g g1 g2 g' : Env} {a b d e : Expr} {c1 c2 c3 : Code} {q : Site} (h1 : Gen g (.expr a) c1 g1)
    (h2 : Gen g1 (.expr b) c2 g2) (h3 : Gen g2 (.expr d) c3 g') (h : InList g.place [a, b, d] q e) : CompiledAt q e := by
  rcases inList_cons h with ⟨rfl, rfl⟩ | h
  · exact h1.here rfl
  · refine h2.two h3 ?_
    rw [h1.place]
    exact h

/-- The parts of a link of a chain. -/
theorem Gen.inLink {g g' : Env} {e e' : Expr} {c : Code} {q : Site} (h : Gen g (.link e) c g')
    (hi : Inside g.place e q e') : CompiledAt q e' := by
  cases h with
  | nullProp h => cases hi with | nullProp => exact h.here rfl
  | errProp _ _ h _ => cases hi with | errProp => exact h.here rfl
  | field h => cases hi with | field => exact h.here rfl
  | superAccess => cases hi
  | call h1 h2 _ =>
    cases hi with
    | call hi =>
      rcases inList_cons hi with ⟨rfl, rfl⟩ | hi
      · exact h1.here rfl
      · refine h2.inArgs ?_
        rw [h1.place]
        exact hi
  | superCall _ h _ => cases hi with | superCall hi => exact h.inArgs hi
  | index h1 hd h0 h2 h3 hg =>
    cases hi with
    | index hi =>
      rcases inList_cons hi with ⟨rfl, rfl⟩ | hi
      · exact h1.here rfl
      · obtain ⟨rfl, rfl⟩ := inList1 hi
        refine h2.here ?_
        rw [place_setTemps, place_setCallDepth h0, h1.place]
        rfl

/-- The parts of an expression are compiled at their places. -/
theorem Gen.inside {g g' : Env} {e e' : Expr} {c : Code} {q : Site} (h : Gen g (.expr e) c g')
    (hi : Inside g.place e q e') : CompiledAt q e' := by
  cases h with
  | ident => cases hi
  | unit => cases hi
  | null => cases hi
  | bool => cases hi
  | int => cases hi
  | float => cases hi
  | str => cases hi
  | anonFn hb _ => cases hi with | anonFn hi => exact Gen.inFn (fk := .function) hb hi
  | object h => cases hi with | object hi => exact h.inFields hi
  | list h => cases hi with | list hi => exact h.inItems hi
  | assignLocal _ _ h => cases hi with | assignIdent => exact h.here rfl
  | updateLocal _ _ _ h => cases hi with | assignIdent => exact h.here rfl
  | assignCaptured _ hr _ _ h => cases hi with | assignIdent => exact h.here (place_resolve hr)
  | updateCaptured _ hr _ _ _ h => cases hi with | assignIdent => exact h.here (place_resolve hr)
  | assignField h1 h2 => cases hi with | assignField hi => exact h1.two h2 hi
  | updateField _ h1 h2 => cases hi with | assignField hi => exact h1.two h2 hi
  | assignIndex h1 h2 h3 => cases hi with | assignIndex hi => exact h1.three h2 h3 hi
  | updateIndex _ h1 h2 h3 => cases hi with | assignIndex hi => exact h1.three h2 h3 hi
  | unary h => cases hi with | unary => exact h.here rfl
  | and h1 h2 => cases hi with | binary _ hi => exact h1.two h2 hi
  | or h1 h2 => cases hi with | binary _ hi => exact h1.two h2 hi
  | pipeline h1 h2 =>
    cases hi with
    | binary hop _ => exact absurd rfl hop
    | pipeline hi => exact h1.two h2 hi
  | coalesce h1 h2 => cases hi with | binary _ hi => exact h1.two h2 hi
  | binary ho h1 h2 =>
    cases hi with
    | binary _ hi => exact h1.two h2 hi
    | pipeline => cases ho
  | «is» hn h _ =>
    cases hi with
    | «is» => exact h.here rfl
    | isAgain hn' => rw [hn] at hn'; cases hn'
  | isNullable _ h1 h2 _ =>
    cases hi with
    | «is» => exact h1.here rfl
    | isAgain => exact h2.here h1.place
  | varDecl h _ _ => cases hi with | varDecl => exact h.here rfl
  | varDecls h _ => cases hi with | varDecl => exact h.here rfl
  | fnDecl _ hb _ _ _ => cases hi with | fnDecl hi => exact Gen.inFn (fk := .function) hb hi
  | opDecl _ hb _ => cases hi with | opDecl hi => exact Gen.inFn (fk := .function) hb hi
  | classDecl h0 hb hsup hv hs hg hm hp =>
    cases hi with
    | base => cases hb with | baseSome hb => exact hb.here (place_pushScope h0)
    | memberFn hmem hp' hi =>
      refine hm.inClassFn hmem ?_
      rw [place_classBody h0 hb hsup hv hg hp']
      exact hi
    | memberOp hmem hp' hi =>
      refine hm.inClassOp hmem ?_
      rw [place_classBody h0 hb hsup hv hg hp']
      exact hi
  | importItems => cases hi
  | importModule => cases hi
  | exportDecl _ _ _ _ h _ => cases hi with | exportDecl => exact h.here rfl
  | ifExpr h1 h2 h3 =>
    cases hi with
    | ifExpr hi =>
      rcases inList_cons hi with ⟨rfl, rfl⟩ | hi
      · exact h1.here rfl
      rcases inList_cons hi with ⟨rfl, rfl⟩ | hi
      · exact h2.here h1.place
      · refine h3.inEls ?_
        rw [h2.place, h1.place]
        exact hi
  | loop h0 h _ =>
    cases hi with
    | loop hi =>
      refine h.inBlock ?_
      rw [place_pushScope h0]
      exact hi
  | whileLoop h0 h1 h2 _ =>
    cases hi with
    | whileCond => exact h1.here (place_pushScope h0)
    | whileBody hi =>
      refine h2.inBlock ?_
      rw [h1.place, place_pushScope h0]
      exact hi
  | rangeLoop hop h1 h2 h0 hl h3 _ =>
    cases hi with
    | rangeBound _ hi => exact h1.two h2 hi
    | rangeBody _ =>
      refine h3.here ?_
      rw [place_addLocal hl, place_pushScope h0, h2.place, h1.place]
      rfl
    | forSource hns => rcases hop with rfl | rfl <;> simp at hns
    | forBody hns => rcases hop with rfl | rfl <;> simp at hns
  | forLoop hns h1 h0 hl h2 _ =>
    cases hi with
    | rangeBound hop => rcases hop with rfl | rfl <;> simp at hns
    | rangeBody hop => rcases hop with rfl | rfl <;> simp at hns
    | forSource _ => exact h1.here rfl
    | forBody _ =>
      refine h2.here ?_
      rw [place_addLocal hl, place_pushScope h0, h1.place]
      rfl
  | break_ => cases hi
  | continue_ => cases hi
  | blockExpr h => cases hi with | block hi => exact h.inBlock hi
  | returnValue _ _ h _ => cases hi with | return_ => exact h.here rfl
  | returnUnit => cases hi
  | returnSelf => cases hi
  | chain he hd h0 h _ _ =>
    refine h.inLink ?_
    rw [place_setCallDepth h0]
    exact hi

theorem CompiledAt.inside {p q : Site} {e e' : Expr} (h : CompiledAt p e) (hi : Inside p e q e') : CompiledAt q e' := by
  obtain ⟨g, c, g', h, rfl⟩ := h
  exact h.inside hi

theorem CompiledAt.occurs {p q : Site} {e e' : Expr} (h : CompiledAt p e) (hi : Occurs p e q e') : CompiledAt q e' := by
  induction hi with
  | here => exact h
  | step _ hi ih => exact ih.inside hi

/-- Everything that occurs in an accepted program is compiled at its place. -/
theorem compiled_occurs {kind : CompilerKind} {root : Expr} {bc : Bytecode} (h : compile kind root = .ok bc) {q : Site}
    {e : Expr} (hi : OccursIn kind root q e) : CompiledAt q e := by
  refine CompiledAt.occurs ?_ hi
  obtain ⟨fn, c, h, -⟩ := compile_gen h
  cases h with
  | other hk h =>
    refine h.here ?_
    unfold startSite
    rw [if_neg hk]
    rfl
  | «module» hl h _ =>
    refine h.here ?_
    rw [place_addLocal hl]
    rfl

end Dice
