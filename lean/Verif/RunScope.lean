import Verif.Run

/-!
# Runs of the scope primitives
-/

namespace Dice

/-! ## Erasure commutes with the scope operations -/

theorem visible_erase (l : List ScopeContext) : ScopeStack.visible (l.map ScopeContext.erase) = ScopeStack.visible l := by
  induction l with
  | nil => rfl
  | cons c l ih => simp only [ScopeStack.visible, List.map_cons, List.flatMap_cons] at ih ⊢; rw [ih]; rfl

theorem local?_erase (s : ScopeStack) (name : String) : s.erase.local? name = s.local? name := by
  simp only [ScopeStack.local?, ScopeStack.erase, visible_erase]

theorem modifyScopes_erase (name : String) (f : ScopeVar → ScopeVar) (l : List ScopeContext) :
    (ScopeStack.modifyScopes name f l).map ScopeContext.erase = ScopeStack.modifyScopes name f (l.map ScopeContext.erase) := by
  induction l with
  | nil => rfl
  | cons c l ih =>
    simp only [ScopeStack.modifyScopes, List.map_cons]
    by_cases h : c.variables.any (fun v => v.name == name) = true
    · rw [if_pos h, if_pos (by exact h)]; rfl
    · rw [if_neg h, if_neg (by exact h), List.map_cons, ih]

theorem modifyScopes_skel (name : String) (f : ScopeVar → ScopeVar) (l : List ScopeContext) :
    (ScopeStack.modifyScopes name f l).map ScopeContext.skel = l.map ScopeContext.skel := by
  induction l with
  | nil => rfl
  | cons c l ih =>
    simp only [ScopeStack.modifyScopes]
    by_cases h : c.variables.any (fun v => v.name == name) = true
    · rw [if_pos h]; rfl
    · rw [if_neg h, List.map_cons, ih]; rfl

theorem modifyLocal_erase (s : ScopeStack) (name : String) (f : ScopeVar → ScopeVar) :
    (s.modifyLocal name f).erase = s.erase.modifyLocal name f := by
  simp only [ScopeStack.modifyLocal, ScopeStack.erase, modifyScopes_erase]

theorem totalSlots_erase (l : List ScopeContext) :
    ScopeStack.totalSlots (l.map ScopeContext.erase) = ScopeStack.totalSlots l := by
  simp [ScopeStack.totalSlots, Function.comp_def, ScopeContext.erase]

theorem addLocal_erase {s s' : ScopeStack} {name : String} {st : VarState} {slot : Nat}
    (h : s.addLocal name st = some (slot, s')) : s.erase.addLocal name st = some (slot, s'.erase) := by
  unfold ScopeStack.addLocal at h ⊢
  cases hs : s.stack with
  | nil => rw [hs] at h; cases h
  | cons c rest =>
    rw [hs] at h
    simp only [Option.some.injEq, Prod.mk.injEq] at h
    obtain ⟨h1, h2⟩ := h
    subst h2
    simp only [ScopeStack.erase, hs, List.map_cons, Option.some.injEq, Prod.mk.injEq]
    have ht : ScopeStack.totalSlots ({ c.erase with slotCount := c.erase.slotCount + 1 } :: rest.map ScopeContext.erase)
        = ScopeStack.totalSlots ({ c with slotCount := c.slotCount + 1 } :: rest) := by
      have := totalSlots_erase ({ c with slotCount := c.slotCount + 1 } :: rest)
      rw [← this]; rfl
    rw [ht]
    refine ⟨h1, ?_⟩
    subst h1
    rfl

theorem addLocal_skels {s s' : ScopeStack} {name : String} {st : VarState} {slot : Nat}
    (h : s.addLocal name st = some (slot, s')) : s'.stack.map ScopeContext.skel = s.stack.map ScopeContext.skel := by
  unfold ScopeStack.addLocal at h
  cases hs : s.stack with
  | nil => rw [hs] at h; cases h
  | cons c rest =>
    rw [hs] at h
    simp only [Option.some.injEq, Prod.mk.injEq] at h
    obtain ⟨-, h2⟩ := h
    subst h2
    rfl

theorem addUpvalue_erase (c : Ctx) (d : UpvalueDescriptor) :
    c.erase.addUpvalue d = ((c.addUpvalue d).1, (c.addUpvalue d).2.erase) := by
  simp only [Ctx.addUpvalue]
  have : c.erase.upvalues = c.upvalues := rfl
  rw [this]
  cases List.findIdx? (fun u => u == d) c.upvalues <;> rfl

theorem addUpvalue_quiet (c : Ctx) (d : UpvalueDescriptor) : Quiet c (c.addUpvalue d).2 := by
  simp only [Ctx.addUpvalue]
  cases List.findIdx? (fun u => u == d) c.upvalues <;> exact ⟨rfl, rfl⟩

/-- Resolution of captured variables does not look at positions. -/
theorem resolveUpvalue_erase (name : String) : (st : List Ctx) →
    resolveUpvalue name (st.map Ctx.erase) = (resolveUpvalue name st).map fun r => (r.1, r.2.map Ctx.erase)
  | [] => rfl
  | [_] => rfl
  | cur :: parent :: rest => by
    have ih := resolveUpvalue_erase name (parent :: rest)
    simp only [List.map_cons] at ih
    simp only [List.map_cons, resolveUpvalue]
    have hl : parent.erase.scopes.local? name = parent.scopes.local? name := local?_erase _ _
    rw [hl]
    cases parent.scopes.local? name with
    | some v =>
      simp only [addUpvalue_erase, Option.map_some, List.map_cons, Option.some.injEq, Prod.mk.injEq, List.cons.injEq,
        true_and]
      refine ⟨?_, trivial⟩
      simp only [Ctx.erase, modifyLocal_erase]
    | none =>
      simp only [ih]
      cases hr : resolveUpvalue name (parent :: rest) with
      | none => rfl
      | some r =>
        obtain ⟨outer, st⟩ := r
        cases st with
        | nil => rfl
        | cons p' r' =>
          simp only [Option.map_some, List.map_cons, addUpvalue_erase]
          rfl

/-- Resolution emits nothing. -/
theorem resolveUpvalue_quiets (name : String) : (st : List Ctx) → {i : Nat} → {st' : List Ctx} →
    resolveUpvalue name st = some (i, st') → Quiets st st'
  | [], _, _, h => nomatch h
  | [_], _, _, h => nomatch h
  | cur :: parent :: rest, i, st', h => by
    simp only [resolveUpvalue] at h
    cases hl : parent.scopes.local? name with
    | some v =>
      rw [hl] at h
      simp only [Option.some.injEq, Prod.mk.injEq] at h
      obtain ⟨-, rfl⟩ := h
      refine .cons (addUpvalue_quiet _ _) (.cons ⟨rfl, ?_⟩ (.refl _))
      exact modifyScopes_skel _ _ _
    | none =>
      rw [hl] at h
      cases hr : resolveUpvalue name (parent :: rest) with
      | none => rw [hr] at h; cases h
      | some r =>
        obtain ⟨outer, st⟩ := r
        rw [hr] at h
        cases st with
        | nil => cases h
        | cons p' r' =>
          simp only [Option.some.injEq, Prod.mk.injEq] at h
          obtain ⟨-, rfl⟩ := h
          exact .cons (addUpvalue_quiet _ _) (resolveUpvalue_quiets name (parent :: rest) hr)

/-! ## States -/

theorem env_cons {s : CState} {c : Ctx} {rest : List Ctx} (hs : s.stack = c :: rest) :
    s.env = c.erase :: rest.map Ctx.erase := by simp [CState.env, hs]

theorem lookupLocal_inv {s s' : CState} {name : String} {r : Option ScopeVar} (h : lookupLocal name s = .ok (r, s')) :
    s' = s ∧ s.env.lookup name = r ∧ ∃ c rest, s.stack = c :: rest := by
  unfold lookupLocal at h
  obtain ⟨c, s1, h1, h2⟩ := M.bind_inv h
  clear h
  obtain ⟨rfl, rest, hs⟩ := getCtx_inv h1
  obtain ⟨rfl, rfl⟩ := M.pure_inv h2
  refine ⟨rfl, ?_, c, rest, hs⟩
  rw [env_cons hs]
  exact local?_erase _ _

theorem addLocal_inv {s s' : CState} {name : String} {st : VarState} {slot : Nat} (h : addLocal name st s = .ok (slot, s')) :
    ∃ c rest sc, s.stack = c :: rest ∧ c.scopes.addLocal name st = some (slot, sc) ∧
      s' = { s with stack := { c with scopes := sc } :: rest } := by
  unfold addLocal at h
  obtain ⟨c, s1, h1, h2⟩ := M.bind_inv h
  clear h
  obtain ⟨rfl, rest, hs⟩ := getCtx_inv h1
  cases hl : c.scopes.addLocal name st with
  | none => rw [hl] at h2; exact (M.fail_inv h2).elim
  | some r =>
    obtain ⟨slot', sc⟩ := r
    rw [hl] at h2
    obtain ⟨_, s2, h3, h4⟩ := M.bind_inv h2
    clear h2
    obtain ⟨c0, rest0, hs0, rfl⟩ := setCtx_inv h3
    obtain ⟨rfl, rfl⟩ := M.pure_inv h4
    rw [hs] at hs0
    cases hs0
    exact ⟨c, rest, sc, hs, hl, rfl⟩

theorem addLocal_run {s s' : CState} (hi : Inv s) {name : String} {st : VarState} {slot : Nat}
    (h : addLocal name st s = .ok (slot, s')) :
    Run s s' [] .nop ∧ s.env.addLocal name st = some (slot, s'.env) := by
  obtain ⟨c, rest, sc, hs, hl, rfl⟩ := addLocal_inv h
  refine ⟨.quiet hi hs rfl ⟨rfl, addLocal_skels hl⟩ (.refl _) (Nat.le_refl _), ?_⟩
  rw [env_cons hs]
  simp only [Env.addLocal]
  have : c.erase.scopes = c.scopes.erase := rfl
  rw [this, addLocal_erase hl]
  simp [CState.env, Ctx.erase]

theorem setLocalState_run {s s' : CState} (hi : Inv s) {name : String} {st : VarState}
    (h : setLocalState name st s = .ok ((), s')) : Run s s' [] .nop ∧ s'.env = s.env.setState name st := by
  unfold setLocalState at h
  obtain ⟨c, s1, h1, h2⟩ := M.bind_inv h
  clear h
  obtain ⟨rfl, rest, hs⟩ := getCtx_inv h1
  obtain ⟨c0, rest0, hs0, rfl⟩ := setCtx_inv h2
  rw [hs] at hs0
  cases hs0
  refine ⟨.quiet hi hs rfl ⟨rfl, modifyScopes_skel _ _ _⟩ (.refl _) (Nat.le_refl _), ?_⟩
  simp only [CState.env, hs, List.map_cons, Env.setState]
  simp only [Ctx.erase, modifyLocal_erase]

theorem resolve_none {s s' : CState} {name : String} (h : resolve name s = .ok (none, s')) :
    s' = s ∧ resolveUpvalue name s.env = none := by
  unfold resolve at h
  cases hr : resolveUpvalue name s.stack with
  | some r => rw [hr] at h; cases h
  | none =>
    rw [hr] at h
    cases h
    exact ⟨rfl, by simp [CState.env, resolveUpvalue_erase, hr]⟩

theorem resolve_some {s s' : CState} (hi : Inv s) {name : String} {i : Nat} (h : resolve name s = .ok (some i, s')) :
    Run s s' [] .nop ∧ resolveUpvalue name s.env = some (i, s'.env) := by
  unfold resolve at h
  cases hr : resolveUpvalue name s.stack with
  | none => rw [hr] at h; cases h
  | some r =>
    obtain ⟨j, st⟩ := r
    rw [hr] at h
    cases h
    refine ⟨?_, by simp [CState.env, resolveUpvalue_erase, hr]⟩
    have hq := resolveUpvalue_quiets name s.stack hr
    cases hs : s.stack with
    | nil => rw [hs] at hr; cases hr
    | cons c rest =>
      rw [hs] at hq
      cases hq with
      | cons hc hq => exact .quiet hi hs rfl hc hq (Nat.le_refl _)

theorem topScope_inv {s s' : CState} {sc : ScopeContext} (h : topScope s = .ok (sc, s')) :
    s' = s ∧ ∃ c rest tl, s.stack = c :: rest ∧ c.scopes.stack = sc :: tl := by
  unfold topScope at h
  obtain ⟨c, s1, h1, h2⟩ := M.bind_inv h
  clear h
  obtain ⟨rfl, rest, hs⟩ := getCtx_inv h1
  cases ht : c.scopes.stack with
  | nil =>
    simp only [ScopeStack.top?, ht, List.head?_nil] at h2
    exact (M.fail_inv h2).elim
  | cons x tl =>
    simp only [ScopeStack.top?, ht, List.head?_cons] at h2
    obtain ⟨rfl, rfl⟩ := M.pure_inv h2
    exact ⟨rfl, c, rest, tl, hs, ht⟩

theorem setCallContext_inv {s s' : CState} {cc : CallContext} (h : setCallContext cc s = .ok ((), s')) :
    ∃ c rest sc tl, s.stack = c :: rest ∧ c.scopes.stack = sc :: tl ∧
      s' = { s with stack := { c with scopes :=
        { c.scopes with stack := { sc with callContext := cc } :: tl } } :: rest } := by
  unfold setCallContext at h
  obtain ⟨c, s1, h1, h2⟩ := M.bind_inv h
  clear h
  obtain ⟨rfl, rest, hs⟩ := getCtx_inv h1
  cases ht : c.scopes.stack with
  | nil =>
    simp only [ScopeStack.modifyTop, ht] at h2
    exact (M.fail_inv h2).elim
  | cons x tl =>
    simp only [ScopeStack.modifyTop, ht] at h2
    obtain ⟨c0, rest0, hs0, rfl⟩ := setCtx_inv h2
    rw [hs] at hs0
    cases hs0
    exact ⟨c, rest, x, tl, hs, ht, rfl⟩

theorem pushScope_inv {s s' : CState} {kind : ScopeKind} {entry : Option Nat} (h : pushScope kind entry s = .ok ((), s')) :
    ∃ c rest, s.stack = c :: rest ∧ s' = { s with stack := { c with scopes := c.scopes.pushScope kind entry } :: rest } := by
  unfold pushScope at h
  obtain ⟨c, s1, h1, h2⟩ := M.bind_inv h
  clear h
  obtain ⟨rfl, rest, hs⟩ := getCtx_inv h1
  obtain ⟨c0, rest0, hs0, rfl⟩ := setCtx_inv h2
  rw [hs] at hs0
  cases hs0
  exact ⟨c, rest, hs, rfl⟩

theorem popScope_inv {s s' : CState} {sc : ScopeContext} (h : popScope s = .ok (sc, s')) :
    ∃ c rest tl, s.stack = c :: rest ∧ c.scopes.stack = sc :: tl ∧
      s' = { s with stack := { c with scopes := { c.scopes with stack := tl } } :: rest } := by
  unfold popScope at h
  obtain ⟨c, s1, h1, h2⟩ := M.bind_inv h
  clear h
  obtain ⟨rfl, rest, hs⟩ := getCtx_inv h1
  cases ht : c.scopes.stack with
  | nil =>
    simp only [ScopeStack.popScope, ht] at h2
    exact (M.fail_inv h2).elim
  | cons x tl =>
    simp only [ScopeStack.popScope, ht] at h2
    obtain ⟨_, s2, h3, h4⟩ := M.bind_inv h2
    clear h2
    obtain ⟨c0, rest0, hs0, rfl⟩ := setCtx_inv h3
    obtain ⟨rfl, rfl⟩ := M.pure_inv h4
    rw [hs] at hs0
    cases hs0
    exact ⟨c, rest, tl, hs, ht, rfl⟩

theorem pushScope_env {s s' : CState} {kind : ScopeKind} {entry : Option Nat} (h : pushScope kind entry s = .ok ((), s')) :
    s.env.pushScope kind entry.isSome = some s'.env := by
  obtain ⟨c, rest, hs, rfl⟩ := pushScope_inv h
  rw [env_cons hs]
  cases entry <;>
    simp [Env.pushScope, CState.env, Ctx.erase, ScopeStack.pushScope, ScopeStack.erase, ScopeContext.erase]

theorem popScope_env {s s' : CState} {sc : ScopeContext} (h : popScope s = .ok (sc, s')) :
    s.env.popScope = some (sc.variables, s'.env) := by
  obtain ⟨c, rest, tl, hs, ht, rfl⟩ := popScope_inv h
  rw [env_cons hs]
  simp [Env.popScope, CState.env, Ctx.erase, ScopeStack.popScope, ScopeStack.erase, ht, ScopeContext.erase]

theorem topScope_vars {s s' : CState} {sc : ScopeContext} (h : topScope s = .ok (sc, s')) :
    s.env.topVars = sc.variables := by
  obtain ⟨-, c, rest, tl, hs, ht⟩ := topScope_inv h
  rw [env_cons hs]
  simp [Env.topVars, Ctx.erase, ScopeStack.top?, ScopeStack.erase, ht, ScopeContext.erase]

theorem topScope_depth {s s' : CState} {sc : ScopeContext} (h : topScope s = .ok (sc, s')) :
    s.env.callDepth = some sc.callContext.depth ∧ s.env.scopeDepth = some sc.depth := by
  obtain ⟨-, c, rest, tl, hs, ht⟩ := topScope_inv h
  rw [env_cons hs]
  simp [Env.callDepth, Env.scopeDepth, Ctx.erase, ScopeStack.top?, ScopeStack.erase, ht, ScopeContext.erase]

theorem setCallContext_env {s s' : CState} {cc : CallContext} (h : setCallContext cc s = .ok ((), s')) :
    s.env.setCallDepth cc.depth = some s'.env := by
  obtain ⟨c, rest, sc, tl, hs, ht, rfl⟩ := setCallContext_inv h
  rw [env_cons hs]
  simp [Env.setCallDepth, CState.env, Ctx.erase, ScopeStack.modifyTop, ScopeStack.erase, ht, ScopeContext.erase]

theorem setTemporaries_run {s s' : CState} (hi : Inv s) {n : Nat} (h : setTemporaries n s = .ok ((), s')) :
    Run s s' [] .nop ∧ s'.env = s.env.setTemps n := by
  unfold setTemporaries at h
  obtain ⟨c, s1, h1, h2⟩ := M.bind_inv h
  clear h
  obtain ⟨rfl, rest, hs⟩ := getCtx_inv h1
  obtain ⟨c0, rest0, hs0, rfl⟩ := setCtx_inv h2
  rw [hs] at hs0
  cases hs0
  refine ⟨.quiet hi hs rfl ⟨rfl, rfl⟩ (.refl _) (Nat.le_refl _), ?_⟩
  simp [CState.env, hs, Env.setTemps, Ctx.erase]

theorem getTemporaries_inv {s s' : CState} {n : Nat} (h : getTemporaries s = .ok (n, s')) : s' = s ∧ n = s.env.temps := by
  unfold getTemporaries at h
  obtain ⟨c, s1, h1, h2⟩ := M.bind_inv h
  clear h
  obtain ⟨rfl, rest, hs⟩ := getCtx_inv h1
  obtain ⟨rfl, rfl⟩ := M.pure_inv h2
  refine ⟨rfl, ?_⟩
  rw [env_cons hs]
  rfl

theorem getCtx_kind {s s' : CState} {c : Ctx} (h : getCtx s = .ok (c, s')) : s' = s ∧ s.env.kind = some c.kind := by
  obtain ⟨rfl, rest, hs⟩ := getCtx_inv h
  refine ⟨rfl, ?_⟩
  rw [env_cons hs]
  rfl

theorem position_inv {s s' : CState} {n : Nat} (h : position s = .ok (n, s')) :
    s' = s ∧ ∃ c rest, s.stack = c :: rest ∧ n = c.len := by
  unfold position at h
  obtain ⟨c, s1, h1, h2⟩ := M.bind_inv h
  clear h
  obtain ⟨rfl, rest, hs⟩ := getCtx_inv h1
  obtain ⟨rfl, rfl⟩ := M.pure_inv h2
  exact ⟨rfl, c, rest, hs, rfl⟩

/-! ## Jumps -/

theorem emitJump_inv {s s' : CState} {o : Opcode} {p : Nat} (h : emitJump o s = .ok (p, s')) :
    ∃ c rest c', s.stack = c :: rest ∧ s' = { s with stack := c' :: rest } ∧ Jumped c c' o ∧ c'.skels = c.skels ∧
      c'.erase = c.erase ∧ p = c.len + 1 := by
  unfold emitJump at h
  obtain ⟨c, s1, h1, h2⟩ := M.bind_inv h
  clear h
  obtain ⟨rfl, rest, hs⟩ := getCtx_inv h1
  obtain ⟨_, s2, h3, h4⟩ := M.bind_inv h2
  clear h2
  obtain ⟨c0, rest0, hs0, rfl⟩ := setCtx_inv h3
  obtain ⟨rfl, rfl⟩ := M.pure_inv h4
  rw [hs] at hs0
  cases hs0
  refine ⟨c, rest, _, hs, rfl, ⟨?_, rfl⟩, rfl, rfl, ?_⟩
  · simp [Asm.jump, Asm.op, Asm.putU8]
  · simp [Asm.jump, Asm.op, Asm.putU8, Ctx.len]

theorem Jumped.ok {n : Nat} {c c' : Ctx} {o : Opcode} (h : Jumped c c' o) (hok : CtxOk n c) (hs : c'.skels = c.skels) :
    CtxOk n c' := by
  have hl := h.len
  refine ⟨?_, by rw [hs]; exact hok.calls, by rw [h.con]; exact hok.ids⟩
  intro x hx
  rw [hs] at hx
  have := hok.holes x hx
  omega

theorem patch_inv {s s' : CState} {p : Nat} (h : patch p s = .ok ((), s')) :
    ∃ c rest c', s.stack = c :: rest ∧ s' = { s with stack := c' :: rest } ∧ Patched c.asm c'.asm [p] ∧
      c'.skels = c.skels ∧ c'.erase = c.erase := by
  obtain ⟨c, rest, a, hs, hf, rfl⟩ := emitE_inv h
  exact ⟨c, rest, _, hs, rfl, patched_one hf, rfl, rfl⟩

theorem Patched.ok {n : Nat} {c c' : Ctx} {Z : List Nat} (h : Patched c.asm c'.asm Z) (hok : CtxOk n c)
    (hs : c'.skels = c.skels) : CtxOk n c' := by
  have hl : c'.len = c.len := h.len
  refine ⟨?_, by rw [hs]; exact hok.calls, by rw [h.con]; exact hok.ids⟩
  rw [hs, hl]; exact hok.holes

/-- Patching all of a list of spaced holes. -/
theorem patchAll_inv : (Z : List Nat) → {s s' : CState} → {c : Ctx} → {rest : List Ctx} → s.stack = c :: rest →
    patchAll Z s = .ok ((), s') → (∀ x ∈ Z, ∀ y ∈ Z, x ≠ y → x + 2 ≤ y ∨ y + 2 ≤ x) →
    ∃ c', s' = { s with stack := c' :: rest } ∧ Patched c.asm c'.asm Z ∧ c'.skels = c.skels ∧ c'.erase = c.erase
  | [], s, s', c, rest, hs, h, _ => by
    obtain ⟨-, rfl⟩ := M.pure_inv h
    exact ⟨c, by rw [← hs], .nil _, rfl, rfl⟩
  | z :: Z, s, s', c, rest, hs, h, hgap => by
    obtain ⟨_, s1, h1, h2⟩ := M.bind_inv (x := patch z) h
    obtain ⟨c0, rest0, c1, hs0, rfl, hp, hsk, her⟩ := patch_inv h1
    rw [hs] at hs0
    cases hs0
    obtain ⟨c', rfl, hp', hsk', her'⟩ := patchAll_inv Z (c := c1) (rest := rest) rfl h2
      fun x hx y hy => hgap x (by simp [hx]) y (by simp [hy])
    refine ⟨c', rfl, ?_, hsk'.trans hsk, her'.trans her⟩
    exact hp.trans hp' fun x hx y hy => hgap x (by simp_all) y (by simp [hy])

end Dice
