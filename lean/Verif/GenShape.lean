import Verif.CompileProps

/-!
# Static facts about generated code

The judgement `Gen` restores the nesting of scopes, and the code it gives breaks and continues only inside
loops and leaves chains only inside chains.
-/

namespace Dice

/-! ## The nesting of scopes -/

/-- What of a scope stays the same while code is generated inside it. -/
structure ScopeShape where
  kind : ScopeKind
  entry : Bool
  depth : Nat
  calls : Nat
  deriving DecidableEq

def ScopeContext.shape (sc : ScopeContext) : ScopeShape :=
  ⟨sc.kind, sc.entryPoint.isSome, sc.depth, sc.callContext.depth⟩

abbrev Nesting := List (CompilerKind × List ScopeShape)

def Ctx.shape (c : Ctx) : CompilerKind × List ScopeShape := (c.kind, c.scopes.stack.map ScopeContext.shape)

def Env.shape (g : Env) : Nesting := g.map Ctx.shape

namespace Nesting

def topCalls : Nesting → Option Nat
  | (_, s :: _) :: _ => some s.calls
  | _ => none

def setCalls (d : Nat) : Nesting → Nesting
  | (k, s :: ss) :: rest => (k, { s with calls := d } :: ss) :: rest
  | x => x

def pop : Nesting → Nesting
  | (k, _ :: ss) :: rest => (k, ss) :: rest
  | x => x

theorem setCalls_setCalls (d e : Nat) (s : Nesting) : setCalls d (setCalls e s) = setCalls d s := by
  match s with
  | [] => rfl
  | (k, []) :: rest => rfl
  | (k, s :: ss) :: rest => rfl

theorem setCalls_self {d : Nat} {s : Nesting} (h : topCalls s = some d) : setCalls d s = s := by
  match s, h with
  | (k, s :: ss) :: rest, h => cases h; rfl

theorem topCalls_setCalls {d e : Nat} {s : Nesting} (h : topCalls s = some e) : topCalls (setCalls d s) = some d := by
  match s, h with
  | (k, s :: ss) :: rest, h => rfl

end Nesting

theorem callDepth_shape (g : Env) : g.callDepth = g.shape.topCalls := by
  match g with
  | [] => rfl
  | c :: rest =>
    obtain ⟨k, a, u, ⟨st, n⟩, t⟩ := c
    cases st <;> rfl

theorem setCallDepth_shape {d : Nat} {g g' : Env} (h : g.setCallDepth d = some g') :
    g'.shape = g.shape.setCalls d ∧ g'.callDepth = some d := by
  match g, h with
  | c :: rest, h =>
    obtain ⟨k, a, u, ⟨st, n⟩, t⟩ := c
    cases st with
    | nil => cases h
    | cons s ss => cases h; exact ⟨rfl, rfl⟩

theorem setTemps_shape (n : Nat) (g : Env) : (g.setTemps n).shape = g.shape := by cases g <;> rfl

theorem pushScope_shape {k : ScopeKind} {e : Bool} {g g' : Env} (h : g.pushScope k e = some g') :
    g'.shape.pop = g.shape := by
  match g, h with
  | c :: rest, h => cases h; rfl

theorem popScope_shape {vars : List ScopeVar} {g g' : Env} (h : g.popScope = some (vars, g')) :
    g'.shape = g.shape.pop := by
  match g, h with
  | c :: rest, h =>
    obtain ⟨k, a, u, ⟨st, n⟩, t⟩ := c
    cases st with
    | nil => cases h
    | cons s ss => cases h; rfl

theorem addLocal_shape {x : String} {st : VarState} {slot : Nat} {g g' : Env}
    (h : g.addLocal x st = some (slot, g')) : g'.shape = g.shape := by
  match g, h with
  | c :: rest, h =>
    obtain ⟨k, a, u, ⟨st, n⟩, t⟩ := c
    cases st with
    | nil => cases h
    | cons s ss => cases h; rfl

theorem addLocals_shape {xs : List String} {ls : List (String × Nat)} {g g' : Env}
    (h : g.addLocals xs = some (ls, g')) : g'.shape = g.shape := by
  induction xs generalizing ls g with
  | nil => cases h; rfl
  | cons x xs ih =>
    unfold Env.addLocals at h
    split at h
    · cases h
    · rename_i hl
      split at h
      · cases h
      · rename_i hr
        cases h
        exact (ih hr).trans (addLocal_shape hl)

theorem modifyScopes_shape (name : String) (f : ScopeVar → ScopeVar) (st : List ScopeContext) :
    (ScopeStack.modifyScopes name f st).map ScopeContext.shape = st.map ScopeContext.shape := by
  induction st with
  | nil => rfl
  | cons s ss ih =>
    unfold ScopeStack.modifyScopes
    split
    · rfl
    · simp [ih]

theorem setState_shape (x : String) (st : VarState) (g : Env) : (g.setState x st).shape = g.shape := by
  match g with
  | [] => rfl
  | c :: rest => simp [Env.setState, Env.shape, Ctx.shape, ScopeStack.modifyLocal, modifyScopes_shape]

theorem addUpvalue_shape (c : Ctx) (d : UpvalueDescriptor) : (c.addUpvalue d).2.shape = c.shape := by
  unfold Ctx.addUpvalue
  split <;> rfl

theorem resolve_shape {x : String} {g : List Ctx} {i : Nat} {g' : Env} (h : resolveUpvalue x g = some (i, g')) :
    Env.shape g' = Env.shape g := by
  match g, h with
  | [], h => cases h
  | [_], h => cases h
  | cur :: parent :: rest, h =>
    unfold resolveUpvalue at h
    cases hl : parent.scopes.local? x with
    | some v =>
      simp only [hl] at h
      cases h
      simp only [Env.shape, List.map_cons, addUpvalue_shape]
      simp [Ctx.shape, ScopeStack.modifyLocal, modifyScopes_shape]
    | none =>
      simp only [hl] at h
      cases hr : resolveUpvalue x (parent :: rest) with
      | none => rw [hr] at h; cases h
      | some r =>
        obtain ⟨outer, g1⟩ := r
        rw [hr] at h
        cases g1 with
        | nil => cases h
        | cons p rest' =>
          have := resolve_shape hr
          cases h
          simp only [Env.shape, List.map_cons, addUpvalue_shape] at this ⊢
          rw [this]

theorem IdentGen.shape {g g' : Env} {x : String} {i : Instr} (h : IdentGen g x i g') : g'.shape = g.shape := by
  cases h with
  | «local» => rfl
  | captured _ hr => exact resolve_shape hr
  | global => rfl

theorem TypeGen.shape {g g' : Env} {slot : Nat} {t : Option TypeAnn} {c : Code} (h : TypeGen g slot t c g') :
    g'.shape = g.shape := by
  cases h with
  | none => rfl
  | some h => exact h.shape

theorem ReturnGen.shape {g g' : Env} {c : Code} (h : ReturnGen g c g') : g'.shape = g.shape := by
  cases h with
  | plain => rfl
  | typed _ _ h => exact h.shape

theorem ParamsGen.shape {g g' : Env} {args : List FnArg} {c : Code} (h : ParamsGen g args c g') :
    g'.shape = g.shape := by
  induction h with
  | nil => rfl
  | cons hl ht _ ih => rw [ih, ht.shape, addLocal_shape hl]

theorem ArgsGen.shape {g g' : Env} {k : FnKind} {args : List FnArg} {c : Code} (h : ArgsGen g k args c g') :
    g'.shape = g.shape := by
  cases h with
  | noReceiver _ hl hp => rw [hp.shape, addLocal_shape hl]
  | receiver _ hp => exact hp.shape

theorem scanDecl_shape (e : Expr) {g g' : Env} (h : scanDecl e g = some g') : g'.shape = g.shape := by
  cases e with
  | fnDecl =>
    simp only [scanDecl, Option.map_eq_some_iff] at h
    obtain ⟨⟨s, g1⟩, hl, rfl⟩ := h
    exact addLocal_shape hl
  | classDecl =>
    simp only [scanDecl, Option.map_eq_some_iff] at h
    obtain ⟨⟨s, g1⟩, hl, rfl⟩ := h
    exact addLocal_shape hl
  | exportDecl e => exact scanDecl_shape e (by simpa only [scanDecl] using h)
  | _ => simp only [scanDecl] at h; cases h; rfl

theorem scanDecls_shape {es : List Expr} {g g' : Env} (h : scanDecls es g = some g') : g'.shape = g.shape := by
  induction es generalizing g with
  | nil => cases h; rfl
  | cons e es ih =>
    unfold scanDecls at h
    split at h
    · cases h
    · rename_i hd
      exact (ih h).trans (scanDecl_shape e hd)

theorem FnEndGen.shape {g g' : Env} {k : FnKind} {c : Code} (h : FnEndGen g k c g') : g'.shape = g.shape := by
  cases h with
  | constructor => rfl
  | other _ h => exact h.shape

/-- Generating code restores the nesting of scopes. -/
theorem Gen.shape {g g' : Env} {nd : Node} {c : Code} (h : Gen g nd c g') : g'.shape = g.shape := by
  induction h with
  | ident h => exact h.shape
  | anonFn _ _ ih => exact (List.cons.inj ih).2
  | assignCaptured _ hr _ _ _ ih => rw [ih, resolve_shape hr]
  | updateCaptured _ hr _ _ _ _ ih => rw [ih, resolve_shape hr]
  | «is» _ _ ht ih => rw [ht.shape, ih]
  | isNullable _ _ _ ht ih1 ih2 => rw [ht.shape, ih2, ih1]
  | varDecl _ hl ht ih => rw [ht.shape, addLocal_shape hl, ih]
  | varDecls _ hl ih => rw [addLocals_shape hl, ih]
  | fnDecl _ _ _ _ _ ih => rw [setState_shape]; exact (List.cons.inj ih).2
  | opDecl _ _ _ ih => exact (List.cons.inj ih).2
  | classDecl h0 _ hsup _ _ hg _ hp ihb ihi =>
    rw [popScope_shape hp, ihi, hg, ← pushScope_shape h0, ← ihb, ← addLocal_shape hsup]
    split
    · rw [setState_shape]
    · rfl
  | importItems hl => exact addLocals_shape hl
  | importModule hl hm => rw [addLocal_shape hm, addLocals_shape hl]
  | loop h0 _ hp ih => rw [popScope_shape hp, ih, pushScope_shape h0]
  | whileLoop h0 _ _ hp ih1 ih2 => rw [popScope_shape hp, ih2, ih1, pushScope_shape h0]
  | rangeLoop _ _ _ h0 hl _ hp ih1 ih2 ih3 =>
    rw [popScope_shape hp, ih3, addLocal_shape hl, pushScope_shape h0, ih2, ih1]
  | forLoop _ _ h0 hl _ hp ih1 ih2 => rw [popScope_shape hp, ih2, addLocal_shape hl, pushScope_shape h0, ih1]
  | returnValue _ _ _ hr ih => rw [hr.shape, ih]
  | returnUnit _ _ hr => exact hr.shape
  | returnSelf _ _ hr => exact hr.shape
  | chain he hd h0 _ hd' h1 ih =>
    obtain ⟨e0, e1⟩ := setCallDepth_shape h0
    obtain ⟨e2, e3⟩ := setCallDepth_shape h1
    rw [callDepth_shape, ih, ← callDepth_shape, e1] at hd'
    cases hd'
    rw [e2, ih, e0, Nesting.setCalls_setCalls, Nesting.setCalls_self (callDepth_shape _ ▸ hd)]
  | errProp _ _ _ hr ih => rw [hr.shape, ih]
  | superAccess _ _ h1 h2 => rw [h2.shape, h1.shape]
  | call _ _ hg ih1 ih2 => rw [hg, setTemps_shape, ih2, ih1]
  | superCall _ _ hi ih => rw [hi.shape, setTemps_shape, ih]
  | index _ hd h0 _ h3 hg ih1 ih2 =>
    rw [hg, (setCallDepth_shape h3).1, setTemps_shape, ih2, setTemps_shape, (setCallDepth_shape h0).1,
      Nesting.setCalls_setCalls, Nesting.setCalls_self (callDepth_shape _ ▸ hd), ih1]
  | argsCons hd h0 _ h2 _ ih1 ih2 =>
    rw [ih2, (setCallDepth_shape h2).1, ih1, setTemps_shape, (setCallDepth_shape h0).1,
      Nesting.setCalls_setCalls, Nesting.setCalls_self (callDepth_shape _ ▸ hd)]
  | baseNone h => exact h.shape
  | clsFn _ _ _ _ _ _ ih1 ih2 => rw [ih2]; exact (List.cons.inj ih1).2
  | clsOp _ _ _ _ _ _ ih1 ih2 => rw [ih2]; exact (List.cons.inj ih1).2
  | block h0 hs _ hp ih => rw [popScope_shape hp, ih, scanDecls_shape hs, pushScope_shape h0]
  | fnBody _ h0 ha hs _ _ he hp ih =>
    simp only [Option.map_eq_some_iff] at hp
    obtain ⟨⟨vars, g6⟩, hp, rfl⟩ := hp
    rw [popScope_shape hp, he.shape, ih, scanDecls_shape hs, ha.shape, pushScope_shape h0]
  | _ => simp_all

/-! ## Breaks, continues and exits stay inside -/

/-- The code breaks, continues and exits only inside its own loops and chains, or as the flags allow. -/
def Scoped : Bool → Bool → Bool → Code → Prop
  | _, _, _, .nop => True
  | _, _, _, .instr _ => True
  | lp, ct, ch, .seq a b => Scoped lp ct ch a ∧ Scoped lp ct ch b
  | lp, ct, ch, .skipIf _ c => Scoped lp ct ch c
  | lp, ct, ch, .branch t e => Scoped lp ct ch t ∧ Scoped lp ct ch e
  | _, _, ch, .loop c => Scoped true true ch c
  | lp, _, _, .breakIf _ => lp = true
  | lp, _, _, .brk => lp = true
  | _, ct, _, .cont => ct = true
  | lp, ct, _, .chain c => Scoped lp ct true c
  | _, _, ch, .exitIf _ => ch = true

theorem Scoped.mono {c : Code} {lp ct ch lp' ct' ch' : Bool} (h : Scoped lp ct ch c) (hl : lp = true → lp' = true)
    (hc : ct = true → ct' = true) (hx : ch = true → ch' = true) : Scoped lp' ct' ch' c := by
  induction c generalizing lp ct ch lp' ct' ch' with
  | nop => trivial
  | instr => trivial
  | seq a b iha ihb => exact ⟨iha h.1 hl hc hx, ihb h.2 hl hc hx⟩
  | skipIf b c ih => exact ih (lp := lp) (ct := ct) (ch := ch) h hl hc hx
  | branch t e iht ihe => exact ⟨iht h.1 hl hc hx, ihe h.2 hl hc hx⟩
  | loop c ih => exact ih (lp := true) (ct := true) (ch := ch) h id id hx
  | breakIf => exact hl h
  | brk => exact hl h
  | cont => exact hc h
  | chain c ih => exact ih (lp := lp) (ct := ct) (ch := true) h hl hc id
  | exitIf => exact hx h

namespace Nesting

def inLoop : Nesting → Bool
  | [] => false
  | (_, ss) :: _ => ss.any (fun s => s.kind == .loop)

def canContinue : Nesting → Bool
  | [] => false
  | (_, ss) :: _ => ((ss.find? (fun s => s.kind == .loop)).map (·.entry)).getD false

def inChain (s : Nesting) : Bool := s.topCalls != some 0

/-- The code stays inside what the nesting allows. -/
def allows (s : Nesting) (c : Code) : Prop := Scoped s.inLoop s.canContinue s.inChain c

/-- Except for chains. -/
def allowsPlain (s : Nesting) (c : Code) : Prop := Scoped s.inLoop s.canContinue false c

theorem inLoop_setCalls (d : Nat) (s : Nesting) : inLoop (setCalls d s) = inLoop s := by
  match s with
  | [] => rfl
  | (k, []) :: rest => rfl
  | (k, s :: ss) :: rest => rfl

theorem canContinue_setCalls (d : Nat) (s : Nesting) : canContinue (setCalls d s) = canContinue s := by
  match s with
  | [] => rfl
  | (k, []) :: rest => rfl
  | (k, s :: ss) :: rest =>
    simp only [setCalls, canContinue, List.find?_cons]
    cases s.kind == .loop <;> rfl

theorem allowsPlain.any {s : Nesting} {c : Code} (h : s.allowsPlain c) (ch : Bool) :
    Scoped s.inLoop s.canContinue ch c := h.mono id id (by simp)

theorem allowsPlain.allows {s : Nesting} {c : Code} (h : s.allowsPlain c) : s.allows c := h.any _

theorem allows.plain {s : Nesting} {c : Code} (h : s.allows c) (h0 : s.topCalls = some 0) : s.allowsPlain c := by
  unfold Nesting.allows inChain at h
  rw [h0] at h
  exact h

end Nesting

theorem inLoop_shape (g : Env) : g.inLoop = g.shape.inLoop := by
  match g with
  | [] => rfl
  | c :: rest =>
    show (c.scopes.stack.find? _).isSome = (c.scopes.stack.map ScopeContext.shape).any _
    rw [List.any_map]
    induction c.scopes.stack with
    | nil => rfl
    | cons s ss ih =>
      rw [List.find?_cons, List.any_cons, ← ih]
      show _ = ((s.kind == .loop) || _)
      cases s.kind == .loop <;> rfl

theorem canContinue_shape (g : Env) : g.canContinue = g.shape.canContinue := by
  match g with
  | [] => rfl
  | c :: rest =>
    show ((c.scopes.stack.find? _).bind _).isSome = (((c.scopes.stack.map ScopeContext.shape).find? _).map _).getD _
    induction c.scopes.stack with
    | nil => rfl
    | cons s ss ih =>
      rw [List.map_cons, List.find?_cons, List.find?_cons]
      show _ = ((match s.kind == .loop with | true => _ | false => _ : Option ScopeShape).map _).getD _
      cases s.kind == .loop
      · exact ih
      · rfl

theorem pushScope_block {g g' : Env} (h : g.pushScope .block false = some g') :
    g'.shape.inLoop = g.shape.inLoop ∧ g'.shape.canContinue = g.shape.canContinue ∧ g'.shape.topCalls = some 0 := by
  match g, h with
  | c :: rest, h => cases h; exact ⟨rfl, rfl, rfl⟩

theorem pushScope_loop {g g' : Env} {e : Bool} (h : g.pushScope .loop e = some g') :
    g'.shape.inLoop = true ∧ g'.shape.topCalls = some 0 := by
  match g, h with
  | c :: rest, h => cases h; exact ⟨rfl, rfl⟩

theorem Scoped.of_instrs {lp ct ch : Bool} (i : Instr) : Scoped lp ct ch (.instr i) := trivial

theorem closeCode_scoped (lp ct ch : Bool) (vs : List ScopeVar) : Scoped lp ct ch (closeCode vs) := by
  induction vs with
  | nil => trivial
  | cons v vs ih =>
    refine ⟨ih, ?_⟩
    split <;> trivial

theorem dropCode_scoped (lp ct ch : Bool) (n : Nat) : Scoped lp ct ch (dropCode n) := by
  induction n with
  | zero => trivial
  | succ n ih => exact ⟨trivial, trivial, ih⟩

theorem fieldLocals_scoped (lp ct ch : Bool) (ls : List (String × Nat)) : Scoped lp ct ch (fieldLocalsCode ls) := by
  induction ls with
  | nil => trivial
  | cons l ls ih => exact ⟨trivial, trivial, trivial, trivial, ih, trivial⟩

theorem TypeGen.scoped {g g' : Env} {slot : Nat} {t : Option TypeAnn} {c : Code} (h : TypeGen g slot t c g')
    (lp ct ch : Bool) : Scoped lp ct ch c := by
  cases h with
  | none => trivial
  | some h => exact ⟨trivial, trivial⟩

theorem ReturnGen.scoped {g g' : Env} {c : Code} (h : ReturnGen g c g') (lp ct ch : Bool) : Scoped lp ct ch c := by
  cases h with
  | plain => trivial
  | typed _ _ h => exact ⟨trivial, trivial⟩

theorem ParamsGen.scoped {g g' : Env} {args : List FnArg} {c : Code} (h : ParamsGen g args c g')
    (lp ct ch : Bool) : Scoped lp ct ch c := by
  induction h with
  | nil => trivial
  | cons hl ht _ ih => exact ⟨ht.scoped .., ih⟩

theorem ArgsGen.scoped {g g' : Env} {k : FnKind} {args : List FnArg} {c : Code} (h : ArgsGen g k args c g')
    (lp ct ch : Bool) : Scoped lp ct ch c := by
  cases h with
  | noReceiver _ hl hp => exact hp.scoped ..
  | receiver _ hp => exact hp.scoped ..

theorem FnEndGen.scoped {g g' : Env} {k : FnKind} {c : Code} (h : FnEndGen g k c g') (lp ct ch : Bool) :
    Scoped lp ct ch c := by
  cases h with
  | constructor => exact ⟨trivial, trivial, trivial, trivial⟩
  | other _ h => exact h.scoped ..

theorem intCode_scoped (lp ct ch : Bool) (i : Int) : Scoped lp ct ch (intCode i) := by
  unfold intCode
  split
  · trivial
  · split <;> trivial

theorem FloatCode.scoped {f : Float} {c : Code} (h : FloatCode f c) (lp ct ch : Bool) : Scoped lp ct ch c := by
  cases h <;> trivial

theorem storeMember_scoped (lp ct ch : Bool) (k : FnKind) (slot : Nat) (name : String) :
    Scoped lp ct ch (storeMember k slot name) := by
  unfold storeMember
  split
  · exact ⟨trivial, trivial⟩
  · exact ⟨trivial, trivial⟩
  · exact ⟨trivial, trivial, trivial, trivial⟩

/-- Generated code breaks, continues and exits only where the environment has a loop or a chain. -/
theorem Gen.scoped {g g' : Env} {nd : Node} {c : Code} (h : Gen g nd c g')
    (hl : ∀ e, nd = .link e → g.callDepth ≠ some 0) : g.shape.allows c := by
  induction h with
  | ident | unit | null | bool | str | anonFn | elsNone | itemsNil | argsNil | fieldsNil | clsNil | baseNone => trivial
  | int => exact intCode_scoped ..
  | float h => exact h.scoped ..
  | object _ ih => exact ⟨trivial, ih (by simp)⟩
  | list _ ih => exact ⟨ih (by simp), trivial⟩
  | assignLocal _ _ _ ih => exact ⟨ih (by simp), trivial⟩
  | updateLocal _ _ _ _ ih => exact ⟨trivial, ih (by simp), trivial, trivial, trivial⟩
  | assignCaptured _ hr _ _ _ ih => rw [← resolve_shape hr]; exact ⟨ih (by simp), trivial⟩
  | updateCaptured _ hr _ _ _ _ ih => rw [← resolve_shape hr]; exact ⟨trivial, ih (by simp), trivial, trivial, trivial⟩
  | assignField h1 _ ih1 ih2 => exact ⟨ih1 (by simp), h1.shape ▸ ih2 (by simp), trivial, trivial⟩
  | updateField _ h1 _ ih1 ih2 =>
    exact ⟨ih1 (by simp), trivial, trivial, h1.shape ▸ ih2 (by simp), trivial, trivial, trivial⟩
  | assignIndex h1 h2 _ ih1 ih2 ih3 =>
    exact ⟨ih1 (by simp), h1.shape ▸ ih2 (by simp), h1.shape ▸ h2.shape ▸ ih3 (by simp), trivial, trivial⟩
  | updateIndex _ h1 h2 _ ih1 ih2 ih3 =>
    exact ⟨ih1 (by simp), h1.shape ▸ ih2 (by simp), trivial, trivial, trivial, h1.shape ▸ h2.shape ▸ ih3 (by simp),
      trivial, trivial, trivial⟩
  | unary _ ih => exact ⟨ih (by simp), trivial⟩
  | and h1 _ ih1 ih2 | or h1 _ ih1 ih2 =>
    exact ⟨ih1 (by simp), trivial, trivial, ⟨trivial, h1.shape ▸ ih2 (by simp), trivial, trivial⟩, trivial⟩
  | pipeline h1 _ ih1 ih2 => exact ⟨ih1 (by simp), h1.shape ▸ ih2 (by simp), trivial, trivial⟩
  | coalesce h1 _ ih1 ih2 =>
    exact ⟨ih1 (by simp), trivial, trivial, trivial, ⟨trivial, h1.shape ▸ ih2 (by simp), trivial⟩, trivial⟩
  | binary _ h1 _ ih1 ih2 => exact ⟨ih1 (by simp), h1.shape ▸ ih2 (by simp), trivial, trivial⟩
  | «is» _ _ _ ih => exact ⟨ih (by simp), trivial, trivial, trivial⟩
  | isNullable _ h1 _ _ ih1 ih2 =>
    exact ⟨ih1 (by simp), trivial, trivial, trivial, ⟨trivial, h1.shape ▸ ih2 (by simp), trivial, trivial, trivial⟩,
      trivial⟩
  | varDecl _ _ ht ih => exact ⟨ih (by simp), trivial, ht.scoped .., trivial⟩
  | varDecls _ _ ih => exact ⟨ih (by simp), fieldLocals_scoped ..⟩
  | fnDecl => exact ⟨trivial, trivial⟩
  | opDecl => exact ⟨trivial, trivial, trivial, trivial⟩
  | @classDecl g g1 g2 g3 g4 g5 g' name base items cb superSlot v ci vars h0 hb hsup _ _ hg _ _ ihb ihi =>
    obtain ⟨e1, e2, e3⟩ := pushScope_block h0
    have hb' := (ihb (by simp)).plain e3
    have hs : g3.shape = g1.shape := (addLocal_shape hsup).trans hb.shape
    have hs2 : g4.shape = g1.shape := by
      rw [hg]
      split
      · exact (setState_shape _ _ _).trans hs
      · exact hs
    have hi' := ihi (by simp)
    rw [hs2] at hi'
    have hi' := hi'.plain e3
    unfold Nesting.allowsPlain at hb' hi'
    rw [e1, e2] at hb' hi'
    exact ⟨hb'.mono id id (by simp), trivial, trivial, trivial, hi'.mono id id (by simp), closeCode_scoped .., trivial⟩
  | importItems => exact ⟨trivial, fieldLocals_scoped ..⟩
  | importModule => exact ⟨trivial, fieldLocals_scoped .., trivial, trivial⟩
  | exportDecl _ _ _ _ _ _ ih => exact ⟨trivial, ih (by simp), trivial, trivial⟩
  | ifExpr h1 h2 _ ih1 ih2 ih3 =>
    exact ⟨ih1 (by simp), h1.shape ▸ ih2 (by simp), h1.shape ▸ h2.shape ▸ ih3 (by simp)⟩
  | loop h0 _ _ ih =>
    obtain ⟨e1, e2⟩ := pushScope_loop h0
    exact ⟨((ih (by simp)).plain e2).mono (by simp) (by simp) (by simp), trivial⟩
  | whileLoop h0 h1 _ _ ih1 ih2 =>
    obtain ⟨e1, e2⟩ := pushScope_loop h0
    have i2 := ih2 (by simp)
    rw [h1.shape] at i2
    exact ⟨⟨((ih1 (by simp)).plain e2).mono (by simp) (by simp) (by simp), rfl,
      (i2.plain e2).mono (by simp) (by simp) (by simp), trivial⟩, trivial⟩
  | rangeLoop _ h1 h2 h0 hv _ _ ih1 ih2 ih3 =>
    obtain ⟨e1, e2⟩ := pushScope_loop h0
    have i3 := ih3 (by simp)
    rw [addLocal_shape hv] at i3
    exact ⟨ih1 (by simp), h1.shape ▸ ih2 (by simp),
      ⟨trivial, trivial, trivial, rfl, (i3.plain e2).mono (by simp) (by simp) (by simp), trivial, trivial, trivial,
        trivial, closeCode_scoped .., trivial⟩, trivial, trivial, trivial⟩
  | forLoop _ h1 h0 hv _ _ ih1 ih2 =>
    obtain ⟨e1, e2⟩ := pushScope_loop h0
    have i2 := ih2 (by simp)
    rw [addLocal_shape hv] at i2
    exact ⟨ih1 (by simp), trivial, trivial, trivial,
      ⟨trivial, trivial, trivial, trivial, rfl, trivial, trivial, (i2.plain e2).mono (by simp) (by simp) (by simp),
        trivial, closeCode_scoped .., trivial⟩, trivial, trivial, trivial, trivial⟩
  | break_ h => rw [inLoop_shape] at h; exact h
  | continue_ h => rw [canContinue_shape] at h; exact h
  | blockExpr _ ih => exact ih (by simp)
  | returnValue _ _ _ hr ih => exact ⟨ih (by simp), dropCode_scoped .., hr.scoped .., trivial⟩
  | returnUnit _ _ hr => exact ⟨trivial, dropCode_scoped .., hr.scoped .., trivial⟩
  | returnSelf _ _ hr => exact ⟨trivial, dropCode_scoped .., hr.scoped .., trivial⟩
  | @chain g g1 g2 g' e c d d' he hd h0 h hd' h1 ih =>
    obtain ⟨e0, e1⟩ := setCallDepth_shape h0
    rw [callDepth_shape, h.shape, ← callDepth_shape, e1] at hd'
    cases hd'
    have i := ih (fun _ _ => by rw [e1]; simp)
    unfold Nesting.allows Nesting.inChain at i
    rw [← callDepth_shape, e1, e0, Nesting.inLoop_setCalls, Nesting.canContinue_setCalls] at i
    split
    · exact i.mono id id (by simp)
    · rename_i hd0
      refine i.mono id id (fun _ => ?_)
      unfold Nesting.inChain
      rw [← callDepth_shape, hd]
      simpa using hd0
  | nullProp _ ih =>
    have := hl _ rfl
    rw [callDepth_shape] at this
    exact ⟨ih (by simp), trivial, trivial, trivial, by simpa [Scoped, Nesting.inChain] using this, trivial⟩
  | errProp _ _ _ hr ih =>
    exact ⟨ih (by simp), trivial, trivial, ⟨dropCode_scoped .., hr.scoped ..⟩, trivial, trivial⟩
  | field _ ih => exact ⟨ih (by simp), trivial⟩
  | superAccess => exact ⟨trivial, trivial, trivial, trivial⟩
  | call h1 _ _ ih1 ih2 => exact ⟨ih1 (by simp), h1.shape ▸ ih2 (by simp), trivial, trivial⟩
  | superCall _ _ _ ih => exact ⟨trivial, ih (by simp), trivial, trivial, trivial⟩
  | index h1 hd h0 _ _ _ ih1 ih2 =>
    have i2 := ih2 (by simp)
    obtain ⟨e0, e1⟩ := setCallDepth_shape h0
    rw [setTemps_shape] at i2
    have i2 := i2.plain (callDepth_shape _ ▸ e1)
    unfold Nesting.allowsPlain at i2
    rw [e0, Nesting.inLoop_setCalls, Nesting.canContinue_setCalls, h1.shape] at i2
    exact ⟨ih1 (by simp), i2.mono id id (by simp), trivial, trivial⟩
  | seqNil _ ih => exact ih (by simp)
  | seqCons h1 _ ih1 ih2 => exact ⟨ih1 (by simp), trivial, h1.shape ▸ ih2 (by simp), trivial⟩
  | elsSome _ ih => exact ih (by simp)
  | itemsCons h1 _ ih1 ih2 => exact ⟨ih1 (by simp), h1.shape ▸ ih2 (by simp)⟩
  | argsCons hd h0 hh1 h2 _ ih1 ih2 =>
    have i1 := ih1 (by simp)
    obtain ⟨e0, e1⟩ := setCallDepth_shape h0
    rw [setTemps_shape] at i1
    have i1 := i1.plain (callDepth_shape _ ▸ e1)
    unfold Nesting.allowsPlain at i1
    rw [e0, Nesting.inLoop_setCalls, Nesting.canContinue_setCalls] at i1
    have i2 := ih2 (by simp)
    rw [(setCallDepth_shape h2).1, hh1.shape, setTemps_shape, e0, Nesting.setCalls_setCalls,
      Nesting.setCalls_self (callDepth_shape _ ▸ hd)] at i2
    exact ⟨i1.mono id id (by simp), i2⟩
  | fieldsCons h1 _ ih1 ih2 => exact ⟨trivial, ih1 (by simp), trivial, trivial, h1.shape ▸ ih2 (by simp), trivial⟩
  | baseSome _ ih => exact ih (by simp)
  | clsFn _ _ _ hb _ _ _ ih2 =>
    have i2 := ih2 (by simp)
    rw [show Env.shape _ = _ from (List.cons.inj hb.shape).2] at i2
    exact ⟨trivial, storeMember_scoped .., i2, trivial⟩
  | clsOp _ _ _ hb _ _ _ ih2 =>
    have i2 := ih2 (by simp)
    rw [show Env.shape _ = _ from (List.cons.inj hb.shape).2] at i2
    exact ⟨trivial, trivial, trivial, i2, trivial⟩
  | block h0 hs _ _ ih =>
    obtain ⟨e1, e2, e3⟩ := pushScope_block h0
    have i := ih (by simp)
    rw [scanDecls_shape hs] at i
    have i := i.plain e3
    unfold Nesting.allowsPlain at i
    rw [e1, e2] at i
    refine ⟨i.mono id id (by simp), ?_, closeCode_scoped .., trivial⟩
    split <;> trivial
  | fnBody _ h0 ha hs _ _ he _ ih =>
    obtain ⟨e1, e2, e3⟩ := pushScope_block h0
    have i := ih (by simp)
    rw [scanDecls_shape hs, ha.shape] at i
    have i := i.plain e3
    unfold Nesting.allowsPlain at i
    rw [e1, e2] at i
    exact ⟨ha.scoped .., i.mono id id (by simp), closeCode_scoped .., he.scoped .., trivial⟩

end Dice
