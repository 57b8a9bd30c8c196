import Verif.Compiler
import Verif.UpvalueProps

/-!
# Derived forms

`x op= e` is written for `x = x op e`, and a conditional without `else` for one whose alternative is an empty block.
-/

namespace Dice

/-- The operator that a compound assignment abbreviates: specification. -/
def AssignOp.binary : AssignOp → Option BinaryOp
  | .assign => none
  | .mul => some .multiply
  | .div => some .divide
  | .add => some .add
  | .sub => some .subtract

mutual

/-- An expression without compound assignments to variables and without missing alternatives: specification. -/
def expand : Expr → Expr
  | .assign op (.ident x) rhs =>
    match op.binary with
    | some o => .assign .assign (.ident x) (.binary o (.ident x) (expand rhs))
    | none => .assign .assign (.ident x) (expand rhs)
  | .assign op (.field e f) rhs => .assign op (.field (expand e) f) (expand rhs)
  | .assign op (.index e i) rhs => .assign op (.index (expand e) (expand i)) (expand rhs)
  | .ifExpr c t none => .ifExpr (expand c) (expand t) (some (.block [] none))
  | .ifExpr c t (some e) => .ifExpr (expand c) (expand t) (some (expand e))
  | .anonFn args ret body => .anonFn args ret (expand body)
  | .object fs => .object (expandFields fs)
  | .list es => .list (expandAll es)
  | .unary op e => .unary op (expand e)
  | .binary op a b => .binary op (expand a) (expand b)
  | .is e t => .is (expand e) t
  | .varDecl k m e t => .varDecl k m (expand e) t
  | .fnDecl x args ret body => .fnDecl x args ret (expand body)
  | .opDecl op args ret body => .opDecl op args ret (expand body)
  | .classDecl x base items => .classDecl x (expandOpt base) (expandAll items)
  | .exportDecl e => .exportDecl (expand e)
  | .loop b => .loop (expand b)
  | .whileLoop c b => .whileLoop (expand c) (expand b)
  | .forLoop x e b => .forLoop x (expand e) (expand b)
  | .block es t => .block (expandAll es) (expandOpt t)
  | .return_ e => .return_ (expandOpt e)
  | .nullProp e => .nullProp (expand e)
  | .errProp e => .errProp (expand e)
  | .field e f => .field (expand e) f
  | .call e es => .call (expand e) (expandAll es)
  | .superCall es => .superCall (expandAll es)
  | .index e i => .index (expand e) (expand i)
  | e => e

def expandAll : List Expr → List Expr
  | [] => []
  | e :: es => expand e :: expandAll es

def expandFields : List (String × Expr) → List (String × Expr)
  | [] => []
  | f :: fs => (f.1, expand f.2) :: expandFields fs

def expandOpt : Option Expr → Option Expr
  | none => none
  | some e => some (expand e)

end

/-! ## States in which mutable variables are initialized -/

/-- A variable that may be assigned may be read. -/
def ScopeVar.Ready (v : ScopeVar) : Prop := v.isMutable = true → v.isInitialized = true

def VarState.Ready : VarState → Prop
  | .local m i => m = true → i = true
  | _ => True

def Ctx.Ready (c : Ctx) : Prop := ∀ v ∈ ScopeStack.visible c.scopes.stack, v.Ready

def CState.Ready (s : CState) : Prop := ∀ c ∈ s.stack, c.Ready

theorem ready_state {v : ScopeVar} (h : v.state.Ready) : v.Ready := by
  intro hm
  unfold ScopeVar.isMutable at hm
  unfold ScopeVar.isInitialized
  cases hs : v.state with
  | «local» m i => rw [hs] at h hm; exact h hm
  | function => rw [hs] at hm; cases hm
  | «class» => rw [hs] at hm; cases hm

/-- An empty block leaves `()` and the scopes as they were. -/
theorem empty_block : visit (.block [] none) = emit .pushUnit := by
  funext s
  simp only [visit, visitSeq, visitElse]
  rcases s with ⟨stack⟩
  cases stack <;> rfl

/-- Two computations that do the same from every state in which mutable variables are initialized, and keep it so. -/
structure Same {α : Type} (x y : M α) : Prop where
  run : ∀ s : CState, s.Ready → x s = y s ∧ ∀ a s', y s = .ok (a, s') → s'.Ready

section
variable {α β : Type}

theorem Same.bind {x y : M α} {f g : α → M β} (h : Same x y) (k : ∀ a, Same (f a) (g a)) : Same (x >>= f) (y >>= g) := by
  constructor
  intro s hs
  obtain ⟨he, hk⟩ := h.run s hs
  show M.bind x f s = M.bind y g s ∧ ∀ b s', M.bind y g s = .ok (b, s') → s'.Ready
  unfold M.bind
  rw [he]
  cases hy : y s with
  | error e => exact ⟨rfl, fun _ _ h => nomatch h⟩
  | ok r => exact (k r.1).run r.2 (hk r.1 r.2 hy)

theorem same_pure (a : α) : Same (pure a : M α) (pure a) := by
  constructor
  intro s hs
  refine ⟨rfl, fun b s' h => ?_⟩
  cases h
  exact hs

theorem same_fail (e : CErr) : Same (M.fail e : M α) (M.fail e) := ⟨fun _ _ => ⟨rfl, fun _ _ h => nomatch h⟩⟩

theorem same_getCtx : Same getCtx getCtx := by
  constructor
  intro s hs
  refine ⟨rfl, fun b s' h => ?_⟩
  unfold getCtx at h
  split at h
  · cases h
  · cases h; exact hs

/-- A change of the innermost context that keeps its variables ready. -/
theorem same_update {f : Ctx → M α}
    (h : ∀ c s a s', c.Ready → (∀ d ∈ s, d.Ready) → ∀ n, f c ⟨c :: s, n⟩ = .ok (a, s') → s'.Ready) :
    Same (getCtx >>= f) (getCtx >>= f) := by
  constructor
  intro s hs
  refine ⟨rfl, fun b s' he => ?_⟩
  obtain ⟨st, n⟩ := s
  cases st with
  | nil => cases he
  | cons c rest => exact h c rest b s' (hs c (by simp)) (fun d hd => hs d (by simp [hd])) n he

theorem ready_set {c : Ctx} {s : List Ctx} {d : Ctx} {n : Nat} {s' : CState} (hs : ∀ d ∈ s, d.Ready) (hd : d.Ready)
    (h : setCtx d ⟨c :: s, n⟩ = .ok ((), s')) : s'.Ready := by
  cases h
  intro e he
  rcases List.mem_cons.1 he with rfl | he
  · exact hd
  · exact hs e he

theorem same_emitE (f : Asm → Except CErr Asm) : Same (emitE f) (emitE f) := by
  apply same_update
  intro c s a s' hc hs n he
  cases hf : f c.asm with
  | error e => rw [hf] at he; cases he
  | ok a => rw [hf] at he; exact ready_set (d := { c with asm := a }) hs hc he

theorem same_emit (o : Opcode) : Same (emit o) (emit o) := same_emitE _
theorem same_emit1 (o : Opcode) (n : Nat) : Same (emit1 o n) (emit1 o n) := same_emitE _
theorem same_emitConst (o : Opcode) (x : String) : Same (emitConst o x) (emitConst o x) := same_emitE _
theorem same_patch (p : Nat) : Same (patch p) (patch p) := same_emitE _
theorem same_emitJumpBack (p : Nat) : Same (emitJumpBack p) (emitJumpBack p) := same_emitE _

theorem same_emitJump (o : Opcode) : Same (emitJump o) (emitJump o) := by
  apply same_update
  intro c s a s' hc hs n he
  cases he
  intro e he
  rcases List.mem_cons.1 he with rfl | he
  · exact hc
  · exact hs e he

theorem same_patchAll : ∀ ps : List Nat, Same (patchAll ps) (patchAll ps)
  | [] => same_pure _
  | p :: ps => (same_patch p).bind fun _ => same_patchAll ps

theorem same_position : Same position position := same_getCtx.bind fun _ => same_pure _

theorem same_repeatM {x y : M Unit} (h : Same x y) : ∀ n, Same (repeatM x n) (repeatM y n)
  | 0 => same_pure _
  | n + 1 => h.bind fun _ => same_repeatM h n

theorem same_pushScope (k : ScopeKind) (e : Option Nat) : Same (pushScope k e) (pushScope k e) := by
  apply same_update
  intro c s a s' hc hs n he
  refine ready_set hs ?_ he
  intro v hv
  exact hc v (by simpa [ScopeStack.pushScope, ScopeStack.visible] using hv)

theorem same_popScope : Same popScope popScope := by
  apply same_update
  intro c s a s' hc hs n he
  cases hp : c.scopes.stack with
  | nil =>
    simp only [ScopeStack.popScope, hp] at he
    cases he
  | cons sc tl =>
    simp only [ScopeStack.popScope, hp] at he
    cases he
    intro e he
    rcases List.mem_cons.1 he with rfl | he
    · intro v hv
      exact hc v (by rw [hp]; simp only [ScopeStack.visible, List.flatMap_cons, List.mem_append]; exact .inr hv)
    · exact hs e he

theorem same_addLocal (x : String) {st : VarState} (h : st.Ready) : Same (addLocal x st) (addLocal x st) := by
  apply same_update
  intro c s a s' hc hs n he
  cases hp : c.scopes.stack with
  | nil =>
    simp only [ScopeStack.addLocal, hp] at he
    cases he
  | cons sc tl =>
    simp only [ScopeStack.addLocal, hp] at he
    cases he
    intro e he
    rcases List.mem_cons.1 he with rfl | he
    · intro v hv
      simp only [ScopeStack.visible, List.flatMap_cons, List.mem_append, List.mem_cons] at hv
      rcases hv with (rfl | hv) | hv
      · exact ready_state h
      · exact hc v (by rw [hp]; simp only [ScopeStack.visible, List.flatMap_cons, List.mem_append]; exact .inl hv)
      · exact hc v (by rw [hp]; simp only [ScopeStack.visible, List.flatMap_cons, List.mem_append]; exact .inr hv)
    · exact hs e he

theorem same_addFn (x : String) (b : Bool) : Same (addLocal x (.function b)) (addLocal x (.function b)) :=
  same_addLocal x trivial

theorem same_addClass (x : String) (b : Bool) : Same (addLocal x (.class b)) (addLocal x (.class b)) :=
  same_addLocal x trivial

theorem same_addParam (x : String) : Same (addLocal x (.local false true)) (addLocal x (.local false true)) :=
  same_addLocal x fun _ => rfl

theorem same_addInit (x : String) (m : Bool) : Same (addLocal x (.initialized m)) (addLocal x (.initialized m)) :=
  same_addLocal x fun _ => rfl

theorem same_topScope : Same topScope topScope :=
  same_getCtx.bind fun c => by
    split
    · exact same_fail _
    · exact same_pure _

theorem same_setCallContext (cc : CallContext) : Same (setCallContext cc) (setCallContext cc) := by
  apply same_update
  intro c s a s' hc hs n he
  cases hp : c.scopes.stack with
  | nil =>
    simp only [ScopeStack.modifyTop, hp] at he
    cases he
  | cons sc tl =>
    simp only [ScopeStack.modifyTop, hp] at he
    cases he
    intro e he
    rcases List.mem_cons.1 he with rfl | he
    · intro v hv
      exact hc v (by rw [hp]; exact hv)
    · exact hs e he

theorem same_takeCallContext : Same takeCallContext takeCallContext :=
  same_topScope.bind fun _ => (same_setCallContext _).bind fun _ => same_pure _

theorem same_lookupLocal (x : String) : Same (lookupLocal x) (lookupLocal x) := same_getCtx.bind fun _ => same_pure _

theorem modifyVars_ready {x : String} {f : ScopeVar → ScopeVar} (hf : ∀ v : ScopeVar, v.Ready → (f v).Ready) :
    ∀ {vs : List ScopeVar}, (∀ v ∈ vs, v.Ready) → ∀ v ∈ ScopeStack.modifyVars x f vs, v.Ready
  | [], _, v, hv => by cases hv
  | u :: us, h, v, hv => by
    unfold ScopeStack.modifyVars at hv
    split at hv
    · rcases List.mem_cons.1 hv with rfl | hv
      · exact hf u (h u (by simp))
      · exact h v (by simp [hv])
    · rcases List.mem_cons.1 hv with rfl | hv
      · exact h _ (by simp)
      · exact modifyVars_ready hf (fun v hv => h v (by simp [hv])) v hv

theorem modifyScopes_ready {x : String} {f : ScopeVar → ScopeVar} (hf : ∀ v : ScopeVar, v.Ready → (f v).Ready) :
    ∀ {cs : List ScopeContext}, (∀ v ∈ ScopeStack.visible cs, v.Ready) →
      ∀ v ∈ ScopeStack.visible (ScopeStack.modifyScopes x f cs), v.Ready
  | [], _, v, hv => by cases hv
  | c :: cs, h, v, hv => by
    unfold ScopeStack.modifyScopes at hv
    simp only [ScopeStack.visible, List.flatMap_cons, List.mem_append] at h
    split at hv
    · simp only [ScopeStack.visible, List.flatMap_cons, List.mem_append] at hv
      rcases hv with hv | hv
      · exact modifyVars_ready hf (fun v hv => h v (.inl hv)) v hv
      · exact h v (.inr hv)
    · simp only [ScopeStack.visible, List.flatMap_cons, List.mem_append] at hv
      rcases hv with hv | hv
      · exact h v (.inl hv)
      · exact modifyScopes_ready hf (fun v hv => h v (.inr hv)) v hv

theorem same_setLocalState (x : String) {st : VarState} (h : st.Ready) : Same (setLocalState x st) (setLocalState x st) := by
  apply same_update
  intro c s a s' hc hs n he
  have hd : ∀ v ∈ ScopeStack.visible (c.scopes.modifyLocal x fun v => { v with state := st }).stack, v.Ready :=
    modifyScopes_ready (fun v _ => ready_state h) hc
  exact ready_set (d := { c with scopes := c.scopes.modifyLocal x fun v => { v with state := st } }) hs hd he

theorem same_setFn (x : String) (b : Bool) : Same (setLocalState x (.function b)) (setLocalState x (.function b)) :=
  same_setLocalState x trivial

theorem same_setClass (x : String) (b : Bool) : Same (setLocalState x (.class b)) (setLocalState x (.class b)) :=
  same_setLocalState x trivial

theorem addUpvalue_scopes (c : Ctx) (d : UpvalueDescriptor) : (c.addUpvalue d).2.scopes = c.scopes := by
  unfold Ctx.addUpvalue
  split <;> rfl

theorem resolve_ready {x : String} : ∀ {g : List Ctx} {i : Nat} {g' : List Ctx}, resolveUpvalue x g = some (i, g') →
    (∀ c ∈ g, c.Ready) → ∀ c ∈ g', c.Ready
  | [], _, _, h, _ => by cases h
  | [_], _, _, h, _ => by cases h
  | cur :: parent :: rest, i, g', h, hs => by
    unfold resolveUpvalue at h
    cases hl : parent.scopes.local? x with
    | some v =>
      rw [hl] at h
      simp only [Option.some.injEq, Prod.mk.injEq] at h
      rw [← h.2]
      intro c hc
      rcases List.mem_cons.1 hc with rfl | hc
      · intro v hv
        rw [addUpvalue_scopes] at hv
        exact hs cur (by simp) v hv
      rcases List.mem_cons.1 hc with rfl | hc
      · have hd : ∀ v ∈ ScopeStack.visible (parent.scopes.modifyLocal x fun v => { v with isCaptured := true }).stack,
            v.Ready := modifyScopes_ready (f := fun v => { v with isCaptured := true }) (fun v hv => hv) (hs parent (by simp))
        exact hd
      · exact hs c (by simp [hc])
    | none =>
      rw [hl] at h
      simp only at h
      cases hr : resolveUpvalue x (parent :: rest) with
      | none => rw [hr] at h; cases h
      | some r =>
        obtain ⟨o, pr⟩ := r
        have ih := resolve_ready hr (fun c hc => hs c (by simp only [List.mem_cons] at hc ⊢; exact .inr hc))
        rw [hr] at h
        cases pr with
        | nil => cases h
        | cons p pr =>
          simp only [Option.some.injEq, Prod.mk.injEq] at h
          rw [← h.2]
          intro c hc
          rcases List.mem_cons.1 hc with rfl | hc
          · intro v hv
            rw [addUpvalue_scopes] at hv
            exact hs cur (by simp) v hv
          · exact ih c hc

theorem same_resolve (x : String) : Same (resolve x) (resolve x) := by
  constructor
  intro s hs
  refine ⟨rfl, fun b s' h => ?_⟩
  unfold resolve at h
  split at h
  · cases h; exact hs
  · cases h
    exact fun c hc => resolve_ready ‹_› hs c hc

theorem same_setTemporaries (n : Nat) : Same (setTemporaries n) (setTemporaries n) := by
  apply same_update
  intro c s a s' hc hs m he
  exact ready_set (d := { c with temporaryCount := n }) hs hc he

theorem same_getTemporaries : Same getTemporaries getTemporaries := same_getCtx.bind fun _ => same_pure _

theorem same_pushCtx (k : CompilerKind) : Same (pushCtx k) (pushCtx k) := by
  constructor
  intro s hs
  refine ⟨rfl, fun b s' h => ?_⟩
  cases h
  intro c hc
  rcases List.mem_cons.1 hc with rfl | hc
  · intro v hv
    simp [ScopeStack.visible, ScopeStack.new] at hv
  · exact hs c hc

theorem same_popCtx : Same popCtx popCtx := by
  constructor
  intro s hs
  refine ⟨rfl, fun b s' h => ?_⟩
  unfold popCtx at h
  split at h
  · cases h
  · rename_i c rest hst
    cases h
    exact fun d hd => hs d (by rw [hst]; simp [hd])

theorem same_freshId : Same freshId freshId := by
  constructor
  intro s hs
  refine ⟨rfl, fun b s' h => ?_⟩
  cases h
  exact hs

theorem same_visitBreak : Same visitBreak visitBreak := by
  apply Same.bind same_getCtx
  intro c
  split
  · apply Same.bind (same_emitJump _)
    intro p
    apply same_update
    intro c s a s' hc hs n he
    cases hst : c.scopes.addLoopExitPoint p with
    | none => rw [hst] at he; cases he
    | some st =>
      rw [hst] at he
      refine ready_set (d := { c with scopes := st }) hs ?_ he
      intro v hv
      apply hc v
      simp only [ScopeStack.addLoopExitPoint, Option.map_eq_some_iff] at hst
      obtain ⟨st', h1, rfl⟩ := hst
      have : ∀ {cs cs' : List ScopeContext}, ScopeStack.modifyFirstOfKind .loop
          (fun c => { c with exitPoints := c.exitPoints ++ [p] }) cs = some cs' →
          ScopeStack.visible cs' = ScopeStack.visible cs := by
        intro cs
        induction cs with
        | nil => intro _ h; cases h
        | cons d ds ih =>
          intro cs' h
          unfold ScopeStack.modifyFirstOfKind at h
          split at h
          · cases h; rfl
          · simp only [Option.map_eq_some_iff] at h
            obtain ⟨ds', h2, rfl⟩ := h
            have := ih h2
            simp only [ScopeStack.visible, List.flatMap_cons] at this ⊢
            rw [this]
      rw [← this h1]
      exact hv
  · exact same_fail _

end

/-- Decomposes a goal about a sequence of steps. -/
macro "same_steps" : tactic => `(tactic|
  repeat' first
    | assumption
    | with_reducible first
      | exact same_pure _ | exact same_fail _ | exact same_getCtx | exact same_emitE _ | exact same_emit _
      | exact same_emit1 _ _ | exact same_emitConst _ _ | exact same_patch _ | exact same_emitJumpBack _
      | exact same_emitJump _ | exact same_patchAll _ | exact same_position | exact same_pushScope _ _
      | exact same_popScope | exact same_addFn _ _ | exact same_addClass _ _ | exact same_addParam _
      | exact same_addInit _ _ | exact same_topScope | exact same_setCallContext _ | exact same_takeCallContext
      | exact same_lookupLocal _ | exact same_setFn _ _ | exact same_setClass _ _ | exact same_resolve _
      | exact same_setTemporaries _ | exact same_getTemporaries | exact same_pushCtx _ | exact same_popCtx
      | exact same_freshId | apply_assumption -exfalso -symm | apply Same.bind | apply same_repeatM
    | intro _
    | split)

/-! ## The visitors -/

theorem same_visitIdent (x : String) : Same (visitIdent x) (visitIdent x) := by
  unfold visitIdent
  same_steps

theorem same_visitLocalType (slot : Nat) (t : Option TypeAnn) : Same (visitLocalType slot t) (visitLocalType slot t) := by
  cases t with
  | none => exact same_pure _
  | some t =>
    have := same_visitIdent t.name
    unfold visitLocalType
    same_steps

theorem same_closeUpvalues : ∀ vs : List ScopeVar, Same (closeUpvalues vs) (closeUpvalues vs)
  | [] => same_pure _
  | v :: vs => by
    have := same_closeUpvalues vs
    unfold closeUpvalues
    same_steps

theorem same_visitReturn : Same visitReturn visitReturn := by
  have := same_visitIdent
  unfold visitReturn
  same_steps

theorem same_enterCall : Same enterCall enterCall := by
  unfold enterCall
  same_steps

theorem same_exitCall : Same exitCall exitCall := by
  unfold exitCall
  same_steps

/-- The outermost form of an expression is kept. -/
theorem expand_head (e : Expr) : (expand e).ctorIdx = e.ctorIdx := by
  cases e with
  | assign op lhs rhs => cases lhs <;> first | rfl | (cases op <;> rfl)
  | ifExpr c t e => cases e <;> rfl
  | _ => rfl

theorem expand_block {e : Expr} (h : ∀ es t, e ≠ .block es t) (es : List Expr) (t : Option Expr) : expand e ≠ .block es t := by
  intro he
  have := expand_head e
  rw [he] at this
  cases e <;> first | exact h _ _ rfl | exact absurd this (by intro h; cases h)

theorem expand_superCall {e : Expr} {es : List Expr} (he : expand e = .superCall es) : ∃ es', e = .superCall es' := by
  have := expand_head e
  rw [he] at this
  cases e <;> first | exact ⟨_, rfl⟩ | exact absurd this (by intro h; cases h)

theorem exportName_expand (e : Expr) : exportName (expand e) = exportName e := by
  cases e with
  | assign op lhs rhs => cases lhs <;> first | rfl | (cases op <;> rfl)
  | ifExpr c t e => cases e <;> rfl
  | varDecl k m e t => cases k <;> rfl
  | _ => rfl
theorem scanExpr_expand (e : Expr) : (scanExpr (expand e)) = (scanExpr e) := by
  induction e using scanExpr.induct with
  | case1 => unfold expand scanExpr; rfl
  | case2 => unfold expand scanExpr; rfl
  | case3 e ih => unfold expand scanExpr; exact ih
  | case4 e h1 h2 h3 =>
    cases e with
    | assign op lhs rhs => cases lhs <;> first | rfl | (cases op <;> rfl)
    | ifExpr c t e => cases e <;> rfl
    | fnDecl => exact absurd rfl (h1 _ _ _ _)
    | classDecl => exact absurd rfl (h2 _ _ _)
    | exportDecl => exact absurd rfl (h3 _)
    | _ => rfl

theorem same_scanExpr (e : Expr) : Same (scanExpr e) (scanExpr e) := by
  induction e using scanExpr.induct with
  | case1 => unfold scanExpr; same_steps
  | case2 => unfold scanExpr; same_steps
  | case3 e ih => unfold scanExpr; exact ih
  | case4 e h1 h2 h3 =>
    have : scanExpr e = pure () := by
      cases e with
      | fnDecl => exact absurd rfl (h1 _ _ _ _)
      | classDecl => exact absurd rfl (h2 _ _ _)
      | exportDecl => exact absurd rfl (h3 _)
      | _ => rfl
    rw [this]
    exact same_pure _

theorem same_scanExprs : ∀ es : List Expr, Same (scanExprs (expandAll es)) (scanExprs es)
  | [] => by unfold expandAll scanExprs; same_steps
  | e :: es => by
    have h1 : Same (scanExpr (expand e)) (scanExpr e) := scanExpr_expand e ▸ same_scanExpr e
    have h2 := same_scanExprs es
    unfold expandAll scanExprs
    same_steps

theorem same_scanItems (es : List Expr) (t : Option Expr) : Same (scanItems (expandAll es) (expandOpt t)) (scanItems es t) := by
  have h1 := same_scanExprs es
  unfold scanItems
  apply h1.bind
  intro _
  cases t with
  | none => unfold expandOpt; exact same_pure _
  | some e =>
    unfold expandOpt
    show Same (scanExpr (expand e)) (scanExpr e)
    exact scanExpr_expand e ▸ same_scanExpr e

variable {x y a b c a' b' c' : M Unit}

theorem same_inCall (h : Same x y) : Same (inCall x) (inCall y) := by
  have h1 := same_enterCall
  have h2 := same_exitCall
  unfold inCall
  same_steps

theorem same_inBlock (k : BlockKind) (es : List Expr) (t : Option Expr) (h : Same x y) :
    Same (inBlock k (expandAll es) (expandOpt t) x) (inBlock k es t y) := by
  have h1 := same_scanItems es t
  have h2 := same_closeUpvalues
  unfold inBlock
  same_steps

theorem same_visitParams : ∀ args : List FnArg, Same (visitParams args) (visitParams args)
  | [] => same_pure _
  | p :: ps => by
    have h1 := same_visitParams ps
    have h2 := same_visitLocalType
    unfold visitParams
    same_steps

theorem same_visitArgDecls (k : FnKind) (args : List FnArg) : Same (visitArgDecls k args) (visitArgDecls k args) := by
  have h1 := same_visitParams args
  unfold visitArgDecls
  same_steps

theorem same_visitFnEnd (k : FnKind) : Same (visitFnEnd k) (visitFnEnd k) := by
  have h1 := same_visitReturn
  unfold visitFnEnd
  same_steps

theorem startsWith_expand (es : List Expr) (t : Option Expr) :
    startsWithSuperCall (expandAll es) (expandOpt t) = startsWithSuperCall es t := by
  have key : ∀ e : Expr, (∀ l, e ≠ .superCall l) → ∀ l, expand e ≠ .superCall l :=
    fun e h l he => (expand_superCall he).elim fun l' hl => h l' hl
  cases es with
  | nil =>
    cases t with
    | none => rfl
    | some e =>
      by_cases h : ∃ l, e = .superCall l
      · obtain ⟨l, rfl⟩ := h
        simp [expandAll, expandOpt, expand, startsWithSuperCall]
      · have h' : ∀ l, e ≠ .superCall l := fun l hl => h ⟨l, hl⟩
        have h2 := key e h'
        unfold expandAll expandOpt startsWithSuperCall
        split <;> split <;> simp_all
  | cons e es =>
    by_cases h : ∃ l, e = .superCall l
    · obtain ⟨l, rfl⟩ := h
      simp [expandAll, expand, startsWithSuperCall]
    · have h' : ∀ l, e ≠ .superCall l := fun l hl => h ⟨l, hl⟩
      have h2 := key e h'
      unfold expandAll startsWithSuperCall
      split <;> split <;> simp_all

theorem same_inFnBlock (k : FnKind) (args : List FnArg) (es : List Expr) (t : Option Expr) (h : Same x y) :
    Same (inFnBlock k args (expandAll es) (expandOpt t) x) (inFnBlock k args es t y) := by
  have h1 := same_scanItems es t
  have h2 := same_closeUpvalues
  have h3 := same_visitArgDecls k args
  have h4 := same_visitFnEnd k
  unfold inFnBlock
  rw [startsWith_expand]
  same_steps

theorem same_compileFn (k : FnKind) (args : List FnArg) (ret : Option TypeAnn) (es : List Expr) (t : Option Expr)
    (h : Same x y) : Same (compileFn k args ret (expandAll es) (expandOpt t) x) (compileFn k args ret es t y) := by
  have h1 := same_inFnBlock k args es t h
  unfold compileFn
  same_steps

theorem same_assertUniqueParams (args : List FnArg) : Same (assertUniqueParams args) (assertUniqueParams args) := by
  unfold assertUniqueParams
  same_steps

theorem same_emitFnValue (f : Ctx) (n : String) (id : Nat) : Same (emitFnValue f n id) (emitFnValue f n id) := by
  unfold emitFnValue
  same_steps

theorem same_emitFnDecl (n : String) (f : Ctx) (id : Nat) : Same (emitFnDecl n f id) (emitFnDecl n f id) := by
  have h1 := same_emitFnValue f n id
  unfold emitFnDecl
  same_steps

theorem same_visitFnDecl (k : FnKind) (n : String) (args : List FnArg) (ret : Option TypeAnn) (es : List Expr)
    (t : Option Expr) (h : Same x y) :
    Same (visitFnDecl k n args ret (expandAll es) (expandOpt t) x) (visitFnDecl k n args ret es t y) := by
  have h1 := same_compileFn k args ret es t h
  have h2 := same_emitFnValue
  have h3 := same_emitFnDecl
  have h4 := same_assertUniqueParams args
  unfold visitFnDecl
  same_steps

theorem same_visitOpDecl (m : Bool) (op : OverOp) (args : List FnArg) (ret : Option TypeAnn) (es : List Expr)
    (t : Option Expr) (h : Same x y) :
    Same (visitOpDecl m op args ret (expandAll es) (expandOpt t) x) (visitOpDecl m op args ret es t y) := by
  have h1 := fun k => same_compileFn k args ret es t h
  have h2 := same_emitFnValue
  have h4 := same_assertUniqueParams args
  unfold visitOpDecl
  same_steps

theorem same_visitClassFn (slot : Nat) (ck : ClassKind) (n : String) (args : List FnArg) (ret : Option TypeAnn)
    (es : List Expr) (t : Option Expr) (h : Same x y) :
    Same (visitClassFn slot ck n args ret (expandAll es) (expandOpt t) x) (visitClassFn slot ck n args ret es t y) := by
  have h1 := fun k => same_visitFnDecl k n args ret es t h
  unfold visitClassFn
  dsimp only
  same_steps

theorem same_visitClassOp (slot : Nat) (op : OverOp) (args : List FnArg) (ret : Option TypeAnn)
    (es : List Expr) (t : Option Expr) (h : Same x y) :
    Same (visitClassOp slot op args ret (expandAll es) (expandOpt t) x) (visitClassOp slot op args ret es t y) := by
  have h1 := same_visitOpDecl true op args ret es t h
  unfold visitClassOp
  same_steps

theorem same_visitClass (n : String) {f g : Nat → M Unit} (h : Same x y) (hi : ∀ k, Same (f k) (g k)) :
    Same (visitClass n x f) (visitClass n y g) := by
  have h2 := same_closeUpvalues
  unfold visitClass
  same_steps

theorem same_addLocals : ∀ ns : List String, Same (addLocals ns) (addLocals ns)
  | [] => same_pure _
  | n :: ns => by
    have h1 := same_addLocals ns
    unfold addLocals
    same_steps

theorem same_emitFieldLocals : ∀ ls : List (String × Nat), Same (emitFieldLocals ls) (emitFieldLocals ls)
  | [] => same_pure _
  | (n, k) :: ls => by
    have h1 := same_emitFieldLocals ls
    unfold emitFieldLocals
    same_steps

theorem same_visitImport (m : Option String) (is : List String) (p : String) : Same (visitImport m is p) (visitImport m is p) := by
  have h1 := same_addLocals is
  have h2 := same_emitFieldLocals
  unfold visitImport
  same_steps

theorem same_visitVarDecl (k : VarKind) (m : Bool) (t : Option TypeAnn) : Same (visitVarDecl k m t) (visitVarDecl k m t) := by
  have h1 := same_addLocals
  have h2 := same_emitFieldLocals
  have h3 := same_visitLocalType
  unfold visitVarDecl
  same_steps

theorem same_visitExport (e : Expr) (h : Same x y) : Same (visitExport (expand e) x) (visitExport e y) := by
  unfold visitExport
  rw [exportName_expand]
  same_steps

theorem same_visitBinary (op : BinaryOp) (h1 : Same a a') (h2 : Same b b') : Same (visitBinary op a b) (visitBinary op a' b') := by
  unfold visitBinary
  same_steps

theorem same_visitIs (t : TypeAnn) (h : Same x y) : Same (visitIs t x) (visitIs t y) := by
  have h1 := same_visitIdent t.name
  unfold visitIs
  same_steps

theorem same_visitIf (h1 : Same a a') (h2 : Same b b') (h3 : Same c c') : Same (visitIf a b c) (visitIf a' b' c') := by
  unfold visitIf
  same_steps

theorem same_visitLoop (h : Same x y) : Same (visitLoop x) (visitLoop y) := by
  unfold visitLoop
  same_steps

theorem same_visitWhile (h1 : Same a a') (h2 : Same b b') : Same (visitWhile a b) (visitWhile a' b') := by
  unfold visitWhile
  same_steps

theorem same_visitRangeLoop (i : Bool) (v : String) (h1 : Same a a') (h2 : Same b b') (h3 : Same c c') :
    Same (visitRangeLoop i v a b c) (visitRangeLoop i v a' b' c') := by
  have h4 := same_closeUpvalues
  unfold visitRangeLoop
  same_steps

theorem same_visitFor (v : String) (h1 : Same a a') (h2 : Same b b') : Same (visitFor v a b) (visitFor v a' b') := by
  have h4 := same_closeUpvalues
  unfold visitFor
  same_steps

theorem same_visitContinue : Same visitContinue visitContinue := by
  unfold visitContinue
  same_steps

theorem same_dropTemporaries (n : Nat) : Same (dropTemporaries n) (dropTemporaries n) := by
  unfold dropTemporaries
  same_steps

theorem same_visitReturnExpr (r : Bool) (h : Same x y) : Same (visitReturnExpr r x) (visitReturnExpr r y) := by
  have h1 := same_dropTemporaries
  have h2 := same_visitReturn
  unfold visitReturnExpr
  same_steps

theorem same_visitNullProp (h : Same x y) : Same (visitNullProp x) (visitNullProp y) := by
  unfold visitNullProp
  same_steps

theorem same_visitErrProp (h : Same x y) : Same (visitErrProp x) (visitErrProp y) := by
  have h1 := same_dropTemporaries
  have h2 := same_visitReturn
  unfold visitErrProp
  same_steps

theorem same_visitSuperAccess (f : String) (sc : Option String) : Same (visitSuperAccess f sc) (visitSuperAccess f sc) := by
  have h1 := same_visitIdent
  unfold visitSuperAccess
  same_steps

theorem same_visitArg (h : Same x y) : Same (visitArg x) (visitArg y) := by
  unfold visitArg
  same_steps

theorem same_visitCall (n : Nat) (h1 : Same a a') (h2 : Same b b') : Same (visitCall n a b) (visitCall n a' b') := by
  unfold visitCall
  same_steps

theorem same_visitSuperCall (n : Nat) (h : Same x y) : Same (visitSuperCall n x) (visitSuperCall n y) := by
  have h1 := same_visitIdent
  unfold visitSuperCall
  same_steps

theorem same_visitIndex (h1 : Same a a') (h2 : Same b b') : Same (visitIndex a b) (visitIndex a' b') := by
  unfold visitIndex
  same_steps

theorem same_visitInt (i : Int) : Same (visitInt i) (visitInt i) := by
  unfold visitInt
  same_steps

theorem same_visitFloat (f : Float) : Same (visitFloat f) (visitFloat f) := by
  unfold visitFloat
  same_steps

theorem same_visitAnonFn (args : List FnArg) (ret : Option TypeAnn) (es : List Expr) (t : Option Expr) (h : Same x y) :
    Same (visitAnonFn args ret (expandAll es) (expandOpt t) x) (visitAnonFn args ret es t y) := by
  have h1 := same_compileFn .function args ret es t h
  have h2 := same_emitFnValue
  unfold visitAnonFn
  same_steps

theorem same_emitOp (op : AssignOp) : Same op.emitOp op.emitOp := by
  unfold AssignOp.emitOp
  same_steps

theorem same_assignLocal (n : String) (op : AssignOp) (v : ScopeVar) (h : Same x y) :
    Same (assignLocal n op v x) (assignLocal n op v y) := by
  have h1 := same_emitOp
  unfold assignLocal
  same_steps

theorem same_assignUpvalue (n : String) (op : AssignOp) (i : Nat) (h : Same x y) :
    Same (assignUpvalue n op i x) (assignUpvalue n op i y) := by
  have h1 := same_emitOp
  unfold assignUpvalue
  same_steps

theorem same_assignIdent (n : String) (op : AssignOp) (h : Same x y) : Same (assignIdent n op x) (assignIdent n op y) := by
  have h1 := fun v => same_assignLocal n op v h
  have h2 := fun i => same_assignUpvalue n op i h
  unfold assignIdent
  same_steps

theorem same_assignField (f : String) (op : AssignOp) (h1 : Same a a') (h2 : Same b b') :
    Same (assignField f op a b) (assignField f op a' b') := by
  have h3 := same_emitOp
  unfold assignField
  same_steps

theorem same_assignIndex (op : AssignOp) (h1 : Same a a') (h2 : Same b b') (h3 : Same c c') :
    Same (assignIndex op a b c) (assignIndex op a' b' c') := by
  have h4 := same_emitOp
  unfold assignIndex
  same_steps

/-! ## A compound assignment is compiled as its expansion -/

theorem modifyVars_twice {x : String} {f : ScopeVar → ScopeVar} (hn : ∀ v, (f v).name = v.name) (hf : ∀ v, f (f v) = f v) :
    ∀ vs, ScopeStack.modifyVars x f (ScopeStack.modifyVars x f vs) = ScopeStack.modifyVars x f vs
  | [] => rfl
  | v :: vs => by
    by_cases h : (v.name == x) = true
    · simp [ScopeStack.modifyVars, h, hn, hf]
    · simp [ScopeStack.modifyVars, h, modifyVars_twice hn hf vs]

theorem modifyVars_any {x : String} {f : ScopeVar → ScopeVar} (hn : ∀ v, (f v).name = v.name) :
    ∀ vs, (ScopeStack.modifyVars x f vs).any (fun v => v.name == x) = vs.any (fun v => v.name == x)
  | [] => rfl
  | v :: vs => by
    by_cases h : (v.name == x) = true
    · simp [ScopeStack.modifyVars, h, hn]
    · simp [ScopeStack.modifyVars, h, modifyVars_any hn vs]

theorem modifyScopes_twice {x : String} {f : ScopeVar → ScopeVar} (hn : ∀ v, (f v).name = v.name) (hf : ∀ v, f (f v) = f v) :
    ∀ cs, ScopeStack.modifyScopes x f (ScopeStack.modifyScopes x f cs) = ScopeStack.modifyScopes x f cs
  | [] => rfl
  | c :: cs => by
    by_cases h : c.variables.any (fun v => v.name == x) = true
    · have h2 := modifyVars_any hn (x := x) c.variables
      rw [h] at h2
      simp only [ScopeStack.modifyScopes, h, if_true, h2, modifyVars_twice hn hf]
    · simp only [ScopeStack.modifyScopes, h, if_false, modifyScopes_twice hn hf cs, Bool.false_eq_true]

theorem addUpvalue_again (c : Ctx) (d : UpvalueDescriptor) :
    (c.addUpvalue d).2.addUpvalue d = c.addUpvalue d := by
  cases h : c.upvalues.findIdx? (fun u => u == d) with
  | some p =>
    have : c.addUpvalue d = (p, c) := by unfold Ctx.addUpvalue; rw [h]
    rw [this]
    exact this
  | none =>
    have h1 : c.addUpvalue d = (c.upvalues.length, { c with upvalues := c.upvalues ++ [d] }) := by
      unfold Ctx.addUpvalue; rw [h]
    rw [h1]
    have h2 : (c.upvalues ++ [d]).findIdx? (fun u => u == d) = some c.upvalues.length := by
      rw [List.findIdx?_append, h]
      simp [List.findIdx?_cons]
    unfold Ctx.addUpvalue
    rw [h2]

theorem resolve_head {x : String} {c : Ctx} {g : List Ctx} {i : Nat} {g' : List Ctx} (h : resolveUpvalue x (c :: g) = some (i, g')) :
    ∃ c' t, g' = c' :: t ∧ c'.scopes = c.scopes := by
  cases g with
  | nil => cases h
  | cons p rest =>
    unfold resolveUpvalue at h
    split at h
    · cases h; exact ⟨_, _, rfl, addUpvalue_scopes _ _⟩
    · split at h
      · cases h; exact ⟨_, _, rfl, addUpvalue_scopes _ _⟩
      · cases h

/-- Resolving a name again changes nothing. -/
theorem resolve_again {x : String} : ∀ {g : List Ctx} {i : Nat} {g' : List Ctx}, resolveUpvalue x g = some (i, g') →
    resolveUpvalue x g' = some (i, g')
  | [], _, _, h => by cases h
  | [_], _, _, h => by cases h
  | cur :: parent :: rest, i, g', h => by
    unfold resolveUpvalue at h
    cases hl : parent.scopes.local? x with
    | some v =>
      rw [hl] at h
      simp only [Option.some.injEq, Prod.mk.injEq] at h
      obtain ⟨rfl, rfl⟩ := h
      have h1 : (parent.scopes.modifyLocal x fun v => { v with isCaptured := true }).local? x
          = some { v with isCaptured := true } := by
        have := local?_modifyScopes x (fun v => { v with isCaptured := true }) (fun _ => rfl) parent.scopes.stack
        unfold ScopeStack.local? at hl ⊢
        rw [hl] at this
        exact this
      have h2 : (parent.scopes.modifyLocal x fun v => { v with isCaptured := true }).modifyLocal x
          (fun v => { v with isCaptured := true }) = parent.scopes.modifyLocal x fun v => { v with isCaptured := true } := by
        unfold ScopeStack.modifyLocal
        simp only [modifyScopes_twice (f := fun v => { v with isCaptured := true }) (fun _ => rfl) (fun _ => rfl)]
      have h3 : (ScopeVar.isMutable { v with isCaptured := true }) = v.isMutable := rfl
      have h4 := addUpvalue_again cur (.parentLocal v.slot v.isMutable)
      unfold resolveUpvalue
      simp only [h1, h2, h3, h4]
    | none =>
      rw [hl] at h
      simp only at h
      cases hr : resolveUpvalue x (parent :: rest) with
      | none => rw [hr] at h; cases h
      | some r =>
        obtain ⟨o, pr⟩ := r
        have ih := resolve_again hr
        obtain ⟨p, t, rfl, hp⟩ := resolve_head hr
        rw [hr] at h
        simp only [Option.some.injEq, Prod.mk.injEq] at h
        obtain ⟨rfl, rfl⟩ := h
        have h4 := fun d => addUpvalue_again cur d
        unfold resolveUpvalue
        simp only [hp, hl, ih, h4]

theorem visitBinary_op {op : AssignOp} {o : BinaryOp} (h : op.binary = some o) {l r : M Unit} :
    visitBinary o l r = (do l; r; op.emitOp) := by
  cases op <;> cases h <;> rfl

theorem M.bind_assoc {α β γ : Type} (x : M α) (f : α → M β) (g : β → M γ) : (x >>= f) >>= g = x >>= fun a => f a >>= g := by
  funext s
  show M.bind (M.bind x f) g s = M.bind x (fun a => M.bind (f a) g) s
  unfold M.bind
  cases x s <;> rfl

theorem bind_at {α β : Type} {x : M α} {f : α → M β} {s s' : CState} {a : α} (h : x s = .ok (a, s')) : (x >>= f) s = f a s' := by
  show M.bind x f s = _
  unfold M.bind
  rw [h]

theorem bind_bad {α β : Type} {x : M α} {f : α → M β} {s : CState} {e : CErr} (h : x s = .error e) : (x >>= f) s = .error e := by
  show M.bind x f s = _
  unfold M.bind
  rw [h]

theorem assign_expanded {n : String} {op : AssignOp} {o : BinaryOp} (h : op.binary = some o) (x : M Unit) {s : CState} (hs : s.Ready) :
    assignIdent n .assign (visitBinary o (visitIdent n) x) s = assignIdent n op x s := by
  rw [visitBinary_op h]
  obtain ⟨st, id⟩ := s
  cases st with
  | nil => rfl
  | cons c rest =>
    have hlook : lookupLocal n ⟨c :: rest, id⟩ = .ok (c.scopes.local? n, ⟨c :: rest, id⟩) := rfl
    unfold assignIdent
    rw [bind_at hlook, bind_at hlook]
    cases hl : c.scopes.local? n with
    | some v =>
      rw [hl] at hlook
      have hv : v.Ready := hs c (by simp) v (List.mem_of_find?_eq_some hl)
      simp only
      unfold assignLocal
      cases hm : v.isMutable with
      | false => rfl
      | true =>
        have hi : visitIdent n ⟨c :: rest, id⟩ = emit1 .loadLocal v.slot ⟨c :: rest, id⟩ := by
          unfold visitIdent
          rw [bind_at hlook]
          simp only [hv hm, if_true]
        simp only [Bool.not_true, Bool.false_eq_true, if_false]
        cases op with
        | assign => cases h
        | _ =>
          simp only [M.bind_assoc]
          cases he : emit1 .loadLocal v.slot ⟨c :: rest, id⟩ with
          | error e => rw [bind_bad he, bind_bad (hi.trans he)]
          | ok r => rw [bind_at he, bind_at (hi.trans he)]
    | none =>
      rw [hl] at hlook
      simp only
      cases hr : resolveUpvalue n (c :: rest) with
      | none =>
        have h1 : resolve n ⟨c :: rest, id⟩ = .ok (none, ⟨c :: rest, id⟩) := by unfold resolve; simp only [hr]
        rw [bind_at h1, bind_at h1]
      | some r =>
        obtain ⟨i, g⟩ := r
        have h1 : resolve n ⟨c :: rest, id⟩ = .ok (some i, ⟨g, id⟩) := by unfold resolve; simp only [hr]
        have h2 : resolve n ⟨g, id⟩ = .ok (some i, ⟨g, id⟩) := by unfold resolve; simp only [resolve_again hr]
        rw [bind_at h1, bind_at h1]
        obtain ⟨c', t, rfl, hc⟩ := resolve_head hr
        have h3 : lookupLocal n ⟨c' :: t, id⟩ = .ok (none, ⟨c' :: t, id⟩) := by
          rw [← hl, ← hc]; rfl
        have hi : visitIdent n ⟨c' :: t, id⟩ = emit1 .loadUpvalue i ⟨c' :: t, id⟩ := by
          unfold visitIdent
          rw [bind_at h3]
          simp only
          rw [bind_at h2]
        have h4 : getCtx ⟨c' :: t, id⟩ = .ok (c', ⟨c' :: t, id⟩) := rfl
        simp only
        unfold assignUpvalue
        rw [bind_at h4, bind_at h4]
        cases hu : c'.upvalues[i]? with
        | none => rfl
        | some d =>
          simp only
          cases hm : d.isMutable with
          | false => rfl
          | true =>
            simp only [Bool.not_true, Bool.false_eq_true, if_false]
            cases op with
            | assign => cases h
            | _ =>
              simp only [M.bind_assoc]
              cases he : emit1 .loadUpvalue i ⟨c' :: t, id⟩ with
              | error e => rw [bind_bad he, bind_bad (hi.trans he)]
              | ok r => rw [bind_at he, bind_at (hi.trans he)]

theorem same_compound {n : String} {op : AssignOp} {o : BinaryOp} (h : op.binary = some o) {x y : M Unit} (hx : Same x y) :
    Same (assignIdent n .assign (visitBinary o (visitIdent n) x)) (assignIdent n op y) := by
  have h1 := same_assignIdent n op hx
  constructor
  intro s hs
  rw [assign_expanded h x hs]
  exact h1.run s hs

/-! ## Programs -/

theorem expandAll_length : ∀ es : List Expr, (expandAll es).length = es.length
  | [] => rfl
  | _ :: es => by simp [expandAll, expandAll_length es]

mutual

theorem same_visit : ∀ e : Expr, Same (visit (expand e)) (visit e)
  | .ident x => by unfold expand visit; exact same_visitIdent x
  | .unit => by unfold expand visit; exact same_emit _
  | .null => by unfold expand visit; exact same_emit _
  | .bool b => by unfold expand visit; exact same_emit _
  | .int i => by unfold expand visit; exact same_visitInt i
  | .float f => by unfold expand visit; exact same_visitFloat f
  | .str s => by unfold expand visit; exact same_emitE _
  | .anonFn args ret body => by
    by_cases hb : ∃ es t, body = .block es t
    · obtain ⟨es, t, rfl⟩ := hb
      have h := same_visitSeq es (same_visitElse t)
      simp only [expand, visit]
      exact same_visitAnonFn args ret es t h
    · have hb : ∀ es t, body ≠ .block es t := fun es t h => hb ⟨es, t, h⟩
      have h := same_visitAnonFn args ret [] (some body) (same_visit body)
      have h1 : visit (.anonFn args ret body) = visitAnonFn args ret [] (some body) (visit body) := by
        simp [visit]
      have h2 : visit (.anonFn args ret (expand body)) = visitAnonFn args ret [] (some (expand body)) (visit (expand body)) := by
        simp [visit, expand_block hb]
      rw [expand, h1, h2]
      exact h
  | .object fs => by
    have h := same_visitFields fs
    simp only [expand, visit]
    same_steps
  | .list es => by
    have h := same_visitItems es
    simp only [expand, visit, expandAll_length]
    same_steps
  | .assign op lhs rhs => by
    have h := same_visit rhs
    cases lhs with
    | ident x =>
      cases ho : op.binary with
      | some o =>
        simp only [expand, ho, visit]
        exact same_compound ho h
      | none =>
        have : op = .assign := by cases op <;> first | rfl | cases ho
        subst this
        simp only [expand, ho, visit]
        exact same_assignIdent x _ h
    | field e f =>
      simp only [expand, visit]
      exact same_assignField f op (same_visit e) h
    | index e i =>
      simp only [expand, visit]
      exact same_assignIndex op (same_visit e) (same_visit i) h
    | _ => exact same_fail _
  | .unary op e => by
    have h := same_visit e
    simp only [expand, visit]
    same_steps
  | .binary op a b => by
    simp only [expand, visit]
    exact same_visitBinary op (same_visit a) (same_visit b)
  | .is e t => by
    simp only [expand, visit]
    exact same_visitIs t (same_visit e)
  | .varDecl k m e t => by
    simp only [expand, visit]
    exact (same_visit e).bind fun _ => same_visitVarDecl k m t
  | .fnDecl x args ret body => by
    by_cases hb : ∃ es t, body = .block es t
    · obtain ⟨es, t, rfl⟩ := hb
      have h := same_visitSeq es (same_visitElse t)
      simp only [expand, visit]
      exact same_visitFnDecl .function x args ret es t h
    · have hb : ∀ es t, body ≠ .block es t := fun es t h => hb ⟨es, t, h⟩
      have h := same_visitFnDecl .function x args ret [] (some body) (same_visit body)
      have h1 : visit (.fnDecl x args ret body) = visitFnDecl .function x args ret [] (some body) (visit body) := by
        simp [visit]
      have h2 : visit (.fnDecl x args ret (expand body)) = visitFnDecl .function x args ret [] (some (expand body)) (visit (expand body)) := by
        simp [visit, expand_block hb]
      rw [expand, h1, h2]
      exact h
  | .opDecl op args ret body => by
    by_cases hb : ∃ es t, body = .block es t
    · obtain ⟨es, t, rfl⟩ := hb
      have h := same_visitSeq es (same_visitElse t)
      simp only [expand, visit]
      exact same_visitOpDecl false op args ret es t h
    · have hb : ∀ es t, body ≠ .block es t := fun es t h => hb ⟨es, t, h⟩
      have h := same_visitOpDecl false op args ret [] (some body) (same_visit body)
      have h1 : visit (.opDecl op args ret body) = visitOpDecl false op args ret [] (some body) (visit body) := by
        simp [visit]
      have h2 : visit (.opDecl op args ret (expand body)) = visitOpDecl false op args ret [] (some (expand body)) (visit (expand body)) := by
        simp [visit, expand_block hb]
      rw [expand, h1, h2]
      exact h
  | .classDecl x (some base) items => by
    simp only [expand, expandOpt, visit]
    exact same_visitClass x (same_visit base) (same_visitClassItems .derived items)
  | .classDecl x none items => by
    simp only [expand, expandOpt, visit]
    exact same_visitClass x (same_visitIdent _) (same_visitClassItems .base items)
  | .importDecl m is p => by unfold expand visit; exact same_visitImport m is p
  | .exportDecl e => by
    simp only [expand, visit]
    exact same_visitExport e (same_visit e)
  | .ifExpr a b none => by
    rw [expand, visit, visit, visitElse, visitElse, empty_block]
    exact same_visitIf (same_visit a) (same_visit b) (same_emit _)
  | .ifExpr a b (some e) => by
    simp only [expand, visit, visitElse]
    exact same_visitIf (same_visit a) (same_visit b) (same_visit e)
  | .loop body => by
    by_cases hb : ∃ es t, body = .block es t
    · obtain ⟨es, t, rfl⟩ := hb
      have h := same_visitSeq es (same_visitElse t)
      simp only [expand, visit]
      exact same_visitLoop (same_inBlock .loop es t h)
    · have hb : ∀ es t, body ≠ .block es t := fun es t h => hb ⟨es, t, h⟩
      have h1 : visit (.loop body) = M.fail .internal := by simp [visit]
      have h2 : visit (.loop (expand body)) = M.fail .internal := by simp [visit, expand_block hb]
      rw [expand, h1, h2]
      exact same_fail _
  | .whileLoop a body => by
    by_cases hb : ∃ es t, body = .block es t
    · obtain ⟨es, t, rfl⟩ := hb
      have h := same_visitSeq es (same_visitElse t)
      simp only [expand, visit]
      exact same_visitWhile (same_visit a) (same_inBlock .loop es t h)
    · have hb : ∀ es t, body ≠ .block es t := fun es t h => hb ⟨es, t, h⟩
      have h1 : visit (.whileLoop a body) = M.fail .internal := by simp [visit]
      have h2 : visit (.whileLoop (expand a) (expand body)) = M.fail .internal := by simp [visit, expand_block hb]
      rw [expand, h1, h2]
      exact same_fail _
  | .forLoop x e b => by
    have hb := same_visit b
    have he := same_visit e
    cases e with
    | binary op l r =>
      have hl := same_visit l
      have hr := same_visit r
      cases op <;> simp only [expand, visit] at he ⊢ <;> first
        | exact same_visitRangeLoop _ x hl hr hb
        | exact same_visitFor x he hb
    | assign op l r =>
      cases l <;> cases op <;> exact same_visitFor x he hb
    | ifExpr a b e => cases e <;> exact same_visitFor x he hb
    | _ => exact same_visitFor x he hb
  | .break_ => by unfold expand visit; exact same_visitBreak
  | .continue_ => by unfold expand visit; exact same_visitContinue
  | .block es t => by
    have h := same_visitSeq es (same_visitElse t)
    simp only [expand, visit]
    exact same_inBlock .block es t h
  | .return_ none => by
    simp only [expand, expandOpt, visit]
    exact same_visitReturnExpr false (same_pure _)
  | .return_ (some e) => by
    simp only [expand, expandOpt, visit]
    exact same_visitReturnExpr true (same_visit e)
  | .nullProp e => by
    simp only [expand, visit]
    exact same_inCall (same_visitNullProp (same_visit e))
  | .errProp e => by
    simp only [expand, visit]
    exact same_inCall (same_visitErrProp (same_visit e))
  | .field e f => by
    simp only [expand, visit]
    exact same_inCall ((same_visit e).bind fun _ => same_emitConst _ _)
  | .superAccess f k => by
    unfold expand visit
    exact same_inCall (same_visitSuperAccess f k)
  | .call e es => by
    simp only [expand, visit, expandAll_length]
    exact same_inCall (same_visitCall _ (same_visit e) (same_visitArgs es))
  | .superCall es => by
    simp only [expand, visit, expandAll_length]
    exact same_inCall (same_visitSuperCall _ (same_visitArgs es))
  | .index e i => by
    simp only [expand, visit]
    exact same_inCall (same_visitIndex (same_visit e) (same_visit i))
  termination_by e => sizeOf e

theorem same_visitSeq : ∀ (es : List Expr) {x y : M Unit}, Same x y → Same (visitSeq (expandAll es) x) (visitSeq es y)
  | [], _, _, h => by simp only [expandAll, visitSeq]; exact h
  | e :: es, _, _, h => by
    have h1 := same_visit e
    have h2 := same_visitSeq es h
    simp only [expandAll, visitSeq]
    same_steps
  termination_by es => sizeOf es

theorem same_visitElse : ∀ t : Option Expr, Same (visitElse (expandOpt t)) (visitElse t)
  | none => by simp only [expandOpt, visitElse]; exact same_emit _
  | some e => by simp only [expandOpt, visitElse]; exact same_visit e
  termination_by t => sizeOf t

theorem same_visitItems : ∀ es : List Expr, Same (visitItems (expandAll es)) (visitItems es)
  | [] => by simp only [expandAll, visitItems]; exact same_pure _
  | e :: es => by
    simp only [expandAll, visitItems]
    exact (same_visit e).bind fun _ => same_visitItems es
  termination_by es => sizeOf es

theorem same_visitArgs : ∀ es : List Expr, Same (visitArgs (expandAll es)) (visitArgs es)
  | [] => by simp only [expandAll, visitArgs]; exact same_pure _
  | e :: es => by
    simp only [expandAll, visitArgs]
    exact (same_visitArg (same_visit e)).bind fun _ => same_visitArgs es
  termination_by es => sizeOf es

theorem same_visitFields : ∀ fs : List (String × Expr), Same (visitFields (expandFields fs)) (visitFields fs)
  | [] => by simp only [expandFields, visitFields]; exact same_pure _
  | (f, e) :: fs => by
    have h1 := same_visit e
    have h2 := same_visitFields fs
    simp only [expandFields, visitFields]
    same_steps
  termination_by fs => sizeOf fs

theorem same_visitClassItems (k : ClassKind) : ∀ (es : List Expr) (slot : Nat),
    Same (visitClassItems k (expandAll es) slot) (visitClassItems k es slot)
  | [], slot => by simp only [expandAll, visitClassItems]; exact same_pure _
  | e :: rest, slot => by
    have hr := same_visitClassItems k rest slot
    cases e with
    | fnDecl x args ret body =>
      by_cases hb : ∃ es t, body = .block es t
      · obtain ⟨es, t, rfl⟩ := hb
        have h := same_visitSeq es (same_visitElse t)
        simp only [expandAll, expand, visitClassItems]
        exact (same_visitClassFn slot k x args ret es t h).bind fun _ => hr
      · have hb : ∀ es t, body ≠ .block es t := fun es t h => hb ⟨es, t, h⟩
        have h := same_visitClassFn slot k x args ret [] (some body) (same_visit body)
        have h1 : visitClassItems k (.fnDecl x args ret body :: rest) slot =
            (do visitClassFn slot k x args ret [] (some body) (visit body); visitClassItems k rest slot) := by
          simp [visitClassItems]
        have h2 : visitClassItems k (.fnDecl x args ret (expand body) :: expandAll rest) slot =
            (do visitClassFn slot k x args ret [] (some (expand body)) (visit (expand body)); visitClassItems k (expandAll rest) slot) := by
          simp [visitClassItems, expand_block hb]
        rw [expandAll, expand, h1, h2]
        exact h.bind fun _ => hr
    | opDecl op args ret body =>
      by_cases hb : ∃ es t, body = .block es t
      · obtain ⟨es, t, rfl⟩ := hb
        have h := same_visitSeq es (same_visitElse t)
        simp only [expandAll, expand, visitClassItems]
        exact (same_visitClassOp slot op args ret es t h).bind fun _ => hr
      · have hb : ∀ es t, body ≠ .block es t := fun es t h => hb ⟨es, t, h⟩
        have h := same_visitClassOp slot op args ret [] (some body) (same_visit body)
        have h1 : visitClassItems k (.opDecl op args ret body :: rest) slot =
            (do visitClassOp slot op args ret [] (some body) (visit body); visitClassItems k rest slot) := by
          simp [visitClassItems]
        have h2 : visitClassItems k (.opDecl op args ret (expand body) :: expandAll rest) slot =
            (do visitClassOp slot op args ret [] (some (expand body)) (visit (expand body)); visitClassItems k (expandAll rest) slot) := by
          simp [visitClassItems, expand_block hb]
        rw [expandAll, expand, h1, h2]
        exact h.bind fun _ => hr
    | assign op lhs rhs => cases lhs <;> cases op <;> exact same_fail _
    | ifExpr a b e => cases e <;> exact same_fail _
    | _ => exact same_fail _
  termination_by es => sizeOf es

end

end Dice
