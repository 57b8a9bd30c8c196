import Verif.Scope

/-!
# Slots and names (C10, C11)

Everything is stated over arbitrary histories of scope operations.
-/

namespace Dice

open ScopeStack

/-- The operations the compiler performs on a scope stack.  `setCaptured` and `setState` are the writes
through `local`; the exit-point and call-context updates do not touch variables. -/
inductive ScopeOp where
  | push (kind : ScopeKind) (entry : Option Nat)
  | pop
  | add (name : String) (state : VarState)
  | setCaptured (name : String)
  | setState (name : String) (state : VarState)
  | addExit (p : Nat)
  | setCall (c : CallContext)

/-- One operation; `none` when the compiler would report `INTERNAL_COMPILER_ERROR`. -/
def ScopeOp.run (s : ScopeStack) : ScopeOp → Option ScopeStack
  | .push k e => some (s.pushScope k e)
  | .pop => s.popScope.map (·.2)
  | .add n st => (s.addLocal n st).map (·.2)
  | .setCaptured n => some (s.modifyLocal n fun v => { v with isCaptured := true })
  | .setState n st => some (s.modifyLocal n fun v => { v with state := st })
  | .addExit p => s.addLoopExitPoint p
  | .setCall c => s.modifyTop fun x => { x with callContext := c }

def runOps (s : ScopeStack) : List ScopeOp → Option ScopeStack
  | [] => some s
  | o :: os => (o.run s).bind (runOps · os)

theorem runOps_append (s : ScopeStack) (xs ys : List ScopeOp) :
    runOps s (xs ++ ys) = (runOps s xs).bind (runOps · ys) := by
  induction xs generalizing s with
  | nil => rfl
  | cons o xs ih =>
    simp only [List.cons_append, runOps]
    cases o.run s with
    | none => rfl
    | some s' => exact ih s'

/-! ## Specification of lookup: nested lists of declarations -/

/-- Scopes innermost first, declarations newest first; a declaration is a name and its storage. -/
abbrev SpecEnv := List (List (String × Nat))

/-- The declaration a name denotes: newest in the innermost scope that declares it. -/
def SpecEnv.lookup (name : String) : SpecEnv → Option Nat
  | [] => none
  | scope :: outer =>
    match scope.lookup name with
    | some slot => some slot
    | none => SpecEnv.lookup name outer

/-- Number of declarations in all open scopes. -/
def SpecEnv.size : SpecEnv → Nat
  | [] => 0
  | scope :: outer => scope.length + SpecEnv.size outer

/-- Effect of an operation on the declarations: a declaration takes the next free slot. -/
def SpecEnv.run (e : SpecEnv) : ScopeOp → Option SpecEnv
  | .push _ _ => some ([] :: e)
  | .pop => match e with
    | [] => none
    | _ :: outer => some outer
  | .add n _ => match e with
    | [] => none
    | scope :: outer => some (((n, SpecEnv.size e) :: scope) :: outer)
  | .addExit _ => some e
  | .setCall _ => some e
  | _ => some e

/-- What the compiler's scope stack says about declarations. -/
def ScopeStack.abs (s : ScopeStack) : SpecEnv :=
  s.stack.map fun c => c.variables.map fun v => (v.name, v.slot)

/-! ## Invariant -/

/-- Slots count down from the total; the frame size covers them. -/
structure ScopeInv (s : ScopeStack) : Prop where
  slots : (visible s.stack).map (·.slot) = (List.range (totalSlots s.stack)).reverse
  count : ∀ c ∈ s.stack, c.variables.length = c.slotCount
  bound : totalSlots s.stack ≤ s.slotCount

theorem modifyVars_map {α : Type} (g : ScopeVar → α) (name : String) (f : ScopeVar → ScopeVar)
    (h : ∀ v, g (f v) = g v) (vs : List ScopeVar) :
    (modifyVars name f vs).map g = vs.map g := by
  induction vs with
  | nil => rfl
  | cons v vs ih =>
    unfold modifyVars
    split
    · simp [h]
    · simp [ih]

theorem modifyVars_length (name : String) (f : ScopeVar → ScopeVar) (vs : List ScopeVar) :
    (modifyVars name f vs).length = vs.length := by
  have := congrArg List.length (modifyVars_map (fun _ => ()) name f (fun _ => rfl) vs)
  simpa using this

/-- Writing through `local` changes nothing but the captured flag and the state of variables. -/
theorem modifyScopes_abs (name : String) (f : ScopeVar → ScopeVar)
    (h : ∀ v, (f v).name = v.name ∧ (f v).slot = v.slot) (cs : List ScopeContext) :
    (modifyScopes name f cs).map (fun c => (c.variables.map (fun v => (v.name, v.slot)), c.slotCount))
      = cs.map (fun c => (c.variables.map (fun v => (v.name, v.slot)), c.slotCount)) := by
  induction cs with
  | nil => rfl
  | cons c cs ih =>
    unfold modifyScopes
    split
    · simp only [List.map_cons]
      rw [modifyVars_map (fun v => (v.name, v.slot)) name f (fun v => by simp [h v])]
    · simp [ih]

theorem modifyFirstOfKind_abs (k : ScopeKind) (f : ScopeContext → ScopeContext)
    (h : ∀ c, (f c).variables = c.variables ∧ (f c).slotCount = c.slotCount)
    (cs cs' : List ScopeContext) (hm : modifyFirstOfKind k f cs = some cs') :
    cs'.map (fun c => (c.variables.map (fun v => (v.name, v.slot)), c.slotCount))
      = cs.map (fun c => (c.variables.map (fun v => (v.name, v.slot)), c.slotCount)) := by
  induction cs generalizing cs' with
  | nil => cases hm
  | cons c cs ih =>
    unfold modifyFirstOfKind at hm
    split at hm
    · cases hm
      simp [h c]
    · cases hr : modifyFirstOfKind k f cs with
      | none => rw [hr] at hm; cases hm
      | some r =>
        rw [hr] at hm
        cases hm
        simp [ih r hr]

/-- The part of the scope stack that determines slots and names. -/
def ScopeStack.shape (s : ScopeStack) : List (List (String × Nat) × Nat) :=
  s.stack.map (fun c => (c.variables.map (fun v => (v.name, v.slot)), c.slotCount))

theorem visible_slots_shape (cs : List ScopeContext) :
    (visible cs).map (·.slot) =
      (cs.map (fun c => (c.variables.map (fun v => (v.name, v.slot)), c.slotCount))).flatMap
        (fun p => p.1.map (·.2)) := by
  induction cs with
  | nil => rfl
  | cons c cs ih =>
    simp only [visible, List.flatMap_cons, List.map_append, List.map_cons] at ih ⊢
    rw [ih]; simp

theorem totalSlots_shape (cs : List ScopeContext) :
    totalSlots cs =
      ((cs.map (fun c => (c.variables.map (fun v => (v.name, v.slot)), c.slotCount))).map (·.2)).sum := by
  simp [totalSlots, Function.comp_def]

theorem scopeInv_of_shape {s s' : ScopeStack} (hs : s'.shape = s.shape) (hc : s'.slotCount = s.slotCount)
    (h : ScopeInv s) : ScopeInv s' := by
  obtain ⟨h1, h2, h3⟩ := h
  unfold ScopeStack.shape at hs
  refine ⟨?_, ?_, ?_⟩
  · rw [visible_slots_shape, totalSlots_shape, hs, ← visible_slots_shape, ← totalSlots_shape]; exact h1
  · intro c hc'
    have hmem : (c.variables.map (fun v => (v.name, v.slot)), c.slotCount) ∈
        s.stack.map (fun c => (c.variables.map (fun v => (v.name, v.slot)), c.slotCount)) := by
      rw [← hs]; exact List.mem_map_of_mem hc'
    obtain ⟨c0, hc0, he⟩ := List.mem_map.mp hmem
    have := h2 c0 hc0
    simp only [Prod.mk.injEq] at he
    have hl := congrArg List.length he.1
    simp only [List.length_map] at hl
    omega
  · rw [totalSlots_shape, hs, ← totalSlots_shape, hc]; exact h3

theorem shape_modifyLocal (s : ScopeStack) (n : String) (f : ScopeVar → ScopeVar)
    (h : ∀ v, (f v).name = v.name ∧ (f v).slot = v.slot) : (s.modifyLocal n f).shape = s.shape :=
  modifyScopes_abs n f h s.stack

theorem shape_addExit {s s' : ScopeStack} {p : Nat} (hr : s.addLoopExitPoint p = some s') :
    s'.shape = s.shape ∧ s'.slotCount = s.slotCount := by
  simp only [addLoopExitPoint] at hr
  cases hm : modifyFirstOfKind .loop (fun c => { c with exitPoints := c.exitPoints ++ [p] }) s.stack with
  | none => rw [hm] at hr; cases hr
  | some st =>
    rw [hm] at hr
    cases hr
    refine ⟨?_, rfl⟩
    exact modifyFirstOfKind_abs .loop (fun c => { c with exitPoints := c.exitPoints ++ [p] })
      (fun c => ⟨rfl, rfl⟩) _ _ hm

theorem shape_modifyTop {s s' : ScopeStack} {f : ScopeContext → ScopeContext}
    (hf : ∀ c, (f c).variables = c.variables ∧ (f c).slotCount = c.slotCount)
    (hr : s.modifyTop f = some s') : s'.shape = s.shape ∧ s'.slotCount = s.slotCount := by
  simp only [modifyTop] at hr
  cases hst : s.stack with
  | nil => rw [hst] at hr; cases hr
  | cons c rest =>
    rw [hst] at hr
    cases hr
    simp [ScopeStack.shape, hst, hf c]

theorem totalSlots_cons (c : ScopeContext) (cs : List ScopeContext) :
    totalSlots (c :: cs) = c.slotCount + totalSlots cs := by simp [totalSlots]

theorem visible_length (cs : List ScopeContext)
    (h : ∀ c ∈ cs, c.variables.length = c.slotCount) : (visible cs).length = totalSlots cs := by
  induction cs with
  | nil => rfl
  | cons c cs ih =>
    rw [totalSlots_cons]
    simp only [visible, List.flatMap_cons, List.length_append] at ih ⊢
    rw [ih (fun c' hc' => h c' (by simp [hc'])), h c (by simp)]

theorem range_reverse_succ (n : Nat) : (List.range (n + 1)).reverse = n :: (List.range n).reverse := by
  rw [List.range_succ]; simp

theorem range_reverse_drop (a b : Nat) : (List.range (a + b)).reverse.drop a = (List.range b).reverse := by
  induction a with
  | zero => simp
  | succ a ih =>
    rw [show a + 1 + b = (a + b) + 1 by omega, range_reverse_succ]
    simpa using ih

theorem scopeInv_new (k : ScopeKind) : ScopeInv (ScopeStack.new k) :=
  ⟨rfl, by simp [ScopeStack.new], Nat.le_refl _⟩

theorem scopeInv_step {s s' : ScopeStack} (h : ScopeInv s) (o : ScopeOp) (hr : o.run s = some s') :
    ScopeInv s' ∧ s.slotCount ≤ s'.slotCount := by
  cases o with
  | push k e =>
    cases hr
    refine ⟨⟨?_, ?_, ?_⟩, Nat.le_refl _⟩
    · simpa [pushScope, visible, totalSlots] using h.slots
    · intro c hc
      rcases List.mem_cons.mp hc with rfl | hc
      · rfl
      · exact h.count c hc
    · simpa [pushScope, totalSlots] using h.bound
  | pop =>
    simp only [ScopeOp.run, popScope] at hr
    cases hst : s.stack with
    | nil => rw [hst] at hr; cases hr
    | cons c rest =>
      rw [hst] at hr
      cases hr
      obtain ⟨h1, h2, h3⟩ := h
      rw [hst] at h1 h2 h3
      have hlen := h2 c (by simp)
      rw [totalSlots_cons] at h1 h3
      refine ⟨⟨?_, fun c' hc' => h2 c' (by simp [hc']), ?_⟩, Nat.le_refl _⟩
      · have := congrArg (List.drop c.slotCount) h1
        rw [range_reverse_drop] at this
        rw [← this]
        simp only [visible, List.flatMap_cons, List.map_append]
        rw [← hlen, List.drop_left' (by simp)]
      · show totalSlots rest ≤ s.slotCount
        omega
  | add n st =>
    simp only [ScopeOp.run, addLocal] at hr
    cases hst : s.stack with
    | nil => rw [hst] at hr; cases hr
    | cons c rest =>
      rw [hst] at hr
      cases hr
      obtain ⟨h1, h2, h3⟩ := h
      rw [hst] at h1 h2 h3
      rw [totalSlots_cons] at h1 h3
      simp only [totalSlots_cons]
      refine ⟨⟨?_, ?_, ?_⟩, ?_⟩
      · simp only [visible, List.flatMap_cons, List.map_append, List.cons_append, List.map_cons,
          totalSlots_cons] at h1 ⊢
        rw [show c.slotCount + 1 + totalSlots rest = (c.slotCount + totalSlots rest) + 1 by omega,
          range_reverse_succ, ← h1]
        simp
      · intro c' hc'
        rcases List.mem_cons.mp hc' with rfl | hc'
        · simp [h2 c (by simp)]
        · exact h2 c' (by simp [hc'])
      · simp only [totalSlots_cons]
        split <;> omega
      · split <;> omega
  | setCaptured n =>
    have hr := Option.some.inj hr
    subst hr
    exact ⟨scopeInv_of_shape (shape_modifyLocal s n (fun v => { v with isCaptured := true })
      (fun v => ⟨rfl, rfl⟩)) rfl h, Nat.le_refl _⟩
  | setState n st =>
    have hr := Option.some.inj hr
    subst hr
    exact ⟨scopeInv_of_shape (shape_modifyLocal s n (fun v => { v with state := st })
      (fun v => ⟨rfl, rfl⟩)) rfl h, Nat.le_refl _⟩
  | addExit p =>
    obtain ⟨h1, h2⟩ := shape_addExit hr
    exact ⟨scopeInv_of_shape h1 h2 h, by omega⟩
  | setCall cc =>
    obtain ⟨h1, h2⟩ := shape_modifyTop (f := fun x => { x with callContext := cc }) (fun c => ⟨rfl, rfl⟩) hr
    exact ⟨scopeInv_of_shape h1 h2 h, by omega⟩

theorem scopeInv_run {s s' : ScopeStack} (h : ScopeInv s) (os : List ScopeOp)
    (hr : runOps s os = some s') : ScopeInv s' ∧ s.slotCount ≤ s'.slotCount := by
  induction os generalizing s with
  | nil => cases hr; exact ⟨h, Nat.le_refl _⟩
  | cons o os ih =>
    simp only [runOps] at hr
    cases ho : o.run s with
    | none => rw [ho] at hr; cases hr
    | some s1 =>
      rw [ho] at hr
      obtain ⟨hi, hle⟩ := scopeInv_step h o ho
      obtain ⟨hi2, hle2⟩ := ih hi hr
      exact ⟨hi2, by omega⟩

/-! ## C10 -/

/-- C10: after any history of scope operations, two different variables of open scopes are in different
slots, and at any later time every one of those slots is below the frame size reserved then (in
particular below the final one used by `finish`). -/
theorem live_slots_distinct_and_reserved (k : ScopeKind) (before after : List ScopeOp)
    (s s' : ScopeStack) (h1 : runOps (ScopeStack.new k) before = some s) (h2 : runOps s after = some s') :
    (∀ (i j : Nat) (vi vj : ScopeVar), (visible s.stack)[i]? = some vi → (visible s.stack)[j]? = some vj → i ≠ j →
      vi.slot ≠ vj.slot) ∧
    (∀ v ∈ visible s.stack, v.slot < s'.slotCount) := by
  obtain ⟨inv, -⟩ := scopeInv_run (scopeInv_new k) before h1
  obtain ⟨-, hle⟩ := scopeInv_run inv after h2
  constructor
  · intro i j vi vj hi hj hne heq
    have hnd : ((visible s.stack).map (·.slot)).Nodup := by
      rw [inv.slots]
      unfold List.Nodup
      rw [List.pairwise_reverse]
      exact List.Pairwise.imp (fun h => Ne.symm h) List.nodup_range
    have gi : ((visible s.stack).map (·.slot))[i]? = some vi.slot := by simp [hi]
    have gj : ((visible s.stack).map (·.slot))[j]? = some vj.slot := by simp [hj]
    rw [← heq] at gj
    have li := (List.getElem?_eq_some_iff.mp gi).1
    exact hne ((List.getElem?_inj li hnd).mp (gi.trans gj.symm))
  · intro v hv
    have : v.slot ∈ (visible s.stack).map (·.slot) := List.mem_map_of_mem hv
    rw [inv.slots] at this
    simp at this
    have := inv.bound
    omega

/-- Two scopes, three live variables and one whose scope was closed. -/
example : ∃ s, runOps (ScopeStack.new .block)
      [.add "a" (.initialized true), .push .block none, .add "b" (.initialized false), .pop,
       .push .loop (some 3), .add "c" (.initialized false), .add "a" (.initialized false)] = some s ∧
    (visible s.stack).map (fun v => (v.name, v.slot)) = [("a", 2), ("c", 1), ("a", 0)] ∧
    s.slotCount = 3 := ⟨_, rfl, rfl, rfl⟩

/-! ## C11 -/

theorem abs_size (s : ScopeStack) (h : ScopeInv s) : s.abs.size = totalSlots s.stack := by
  rw [← visible_length s.stack h.count]
  unfold ScopeStack.abs
  generalize s.stack = cs
  induction cs with
  | nil => rfl
  | cons c cs ih =>
    simp only [List.map_cons, SpecEnv.size, List.length_map, visible, List.flatMap_cons,
      List.length_append] at ih ⊢
    rw [ih]

theorem abs_of_shape {s s' : ScopeStack} (h : s'.shape = s.shape) : s'.abs = s.abs := by
  have e : ∀ t : ScopeStack, t.abs = t.shape.map (·.1) := by
    intro t; simp [ScopeStack.abs, ScopeStack.shape]
  rw [e, e, h]

theorem abs_step {s s' : ScopeStack} (h : ScopeInv s) (o : ScopeOp) (hr : o.run s = some s') :
    s.abs.run o = some s'.abs := by
  cases o with
  | push k e => cases hr; rfl
  | pop =>
    simp only [ScopeOp.run, popScope] at hr
    cases hst : s.stack with
    | nil => rw [hst] at hr; cases hr
    | cons c rest => rw [hst] at hr; cases hr; simp [ScopeStack.abs, SpecEnv.run, hst]
  | add n st =>
    have hsz := abs_size s h
    simp only [ScopeOp.run, addLocal] at hr
    cases hst : s.stack with
    | nil => rw [hst] at hr; cases hr
    | cons c rest =>
      rw [hst] at hr hsz
      have e : s.abs = (c.variables.map fun v => (v.name, v.slot)) ::
          rest.map fun c => c.variables.map fun v => (v.name, v.slot) := by
        simp [ScopeStack.abs, hst]
      rw [e] at hsz
      cases hr
      rw [e]
      simp only [SpecEnv.run, hsz]
      simp [ScopeStack.abs, totalSlots_cons]
      try omega
  | setCaptured n =>
    have hr := Option.some.inj hr
    subst hr
    rw [abs_of_shape (shape_modifyLocal s n (fun v => { v with isCaptured := true })
      (fun v => ⟨rfl, rfl⟩))]
    rfl
  | setState n st =>
    have hr := Option.some.inj hr
    subst hr
    rw [abs_of_shape (shape_modifyLocal s n (fun v => { v with state := st }) (fun v => ⟨rfl, rfl⟩))]
    rfl
  | addExit p =>
    rw [abs_of_shape (shape_addExit hr).1]; rfl
  | setCall cc =>
    rw [abs_of_shape (shape_modifyTop (f := fun x => { x with callContext := cc })
      (fun c => ⟨rfl, rfl⟩) hr).1]
    rfl

/-- The specification run over a history. -/
def SpecEnv.runs (e : SpecEnv) : List ScopeOp → Option SpecEnv
  | [] => some e
  | o :: os => (e.run o).bind (SpecEnv.runs · os)

theorem abs_runs {s s' : ScopeStack} (h : ScopeInv s) (os : List ScopeOp) (hr : runOps s os = some s') :
    s.abs.runs os = some s'.abs := by
  induction os generalizing s with
  | nil => cases hr; rfl
  | cons o os ih =>
    simp only [runOps] at hr
    cases ho : o.run s with
    | none => rw [ho] at hr; cases hr
    | some s1 =>
      rw [ho] at hr
      simp only [SpecEnv.runs, abs_step h o ho, Option.bind_some]
      exact ih (scopeInv_step h o ho).1 hr

theorem find?_lookup (vs : List ScopeVar) (name : String) :
    (vs.find? (fun v => v.name == name)).map (·.slot)
      = (vs.map (fun v => (v.name, v.slot))).lookup name := by
  induction vs with
  | nil => rfl
  | cons v vs ih =>
    simp only [List.find?_cons, List.map_cons, List.lookup_cons]
    by_cases hv : v.name = name
    · simp [hv]
    · have h1 : (v.name == name) = false := by simp [hv]
      have h2 : (name == v.name) = false := by simp [Ne.symm hv]
      simp [h1, h2, ih]

theorem local?_lookup (s : ScopeStack) (name : String) :
    (s.local? name).map (·.slot) = s.abs.lookup name := by
  unfold ScopeStack.local? ScopeStack.abs
  generalize s.stack = cs
  induction cs with
  | nil => rfl
  | cons c cs ih =>
    simp only [visible, List.flatMap_cons, List.find?_append, List.map_cons, SpecEnv.lookup] at ih ⊢
    rw [← find?_lookup]
    cases hf : c.variables.find? (fun v => v.name == name) with
    | none => simpa using ih
    | some v => simp

/-- C11: after any history, name lookup answers with the storage of the newest declaration in the
innermost open scope declaring the name, as given by the nested declaration lists of the
specification run over the same history. -/
theorem lookup_refines_spec (k : ScopeKind) (os : List ScopeOp) (s : ScopeStack)
    (h : runOps (ScopeStack.new k) os = some s) (name : String) :
    ∃ e, SpecEnv.runs [[]] os = some e ∧ (s.local? name).map (·.slot) = e.lookup name := by
  refine ⟨s.abs, abs_runs (scopeInv_new k) os h, local?_lookup s name⟩

/-- Operations between opening and closing a scope: every scope opened is closed again. -/
inductive Balanced : List ScopeOp → Prop where
  | nil : Balanced []
  | add (n st) {os} : Balanced os → Balanced (.add n st :: os)
  | setCaptured (n) {os} : Balanced os → Balanced (.setCaptured n :: os)
  | setState (n st) {os} : Balanced os → Balanced (.setState n st :: os)
  | addExit (p) {os} : Balanced os → Balanced (.addExit p :: os)
  | setCall (c) {os} : Balanced os → Balanced (.setCall c :: os)
  | scope (k e) {inner os} : Balanced inner → Balanced os → Balanced (.push k e :: inner ++ .pop :: os)

theorem SpecEnv.runs_append (e : SpecEnv) (xs ys : List ScopeOp) :
    e.runs (xs ++ ys) = (e.runs xs).bind (SpecEnv.runs · ys) := by
  induction xs generalizing e with
  | nil => rfl
  | cons o xs ih =>
    simp only [List.cons_append, SpecEnv.runs]
    cases e.run o with
    | none => rfl
    | some e' => exact ih e'

theorem SpecEnv.runs_balanced {os : List ScopeOp} (hb : Balanced os) (top : List (String × Nat))
    (e : SpecEnv) : ∃ top', SpecEnv.runs (top :: e) os = some ((top' ++ top) :: e) := by
  induction hb generalizing top e with
  | nil => exact ⟨[], rfl⟩
  | add n st _ ih =>
    obtain ⟨t, ht⟩ := ih ((n, SpecEnv.size (top :: e)) :: top) e
    refine ⟨t ++ [(n, SpecEnv.size (top :: e))], ?_⟩
    simp only [SpecEnv.runs, SpecEnv.run, Option.bind_some, ht]
    simp
  | setCaptured n _ ih => exact ih top e
  | setState n st _ ih => exact ih top e
  | addExit p _ ih => exact ih top e
  | setCall c _ ih => exact ih top e
  | @scope k en inner os _ _ ih1 ih2 =>
    obtain ⟨t1, ht1⟩ := ih1 [] (top :: e)
    obtain ⟨t2, ht2⟩ := ih2 top e
    refine ⟨t2, ?_⟩
    rw [List.cons_append]
    simp only [SpecEnv.runs, SpecEnv.run, Option.bind_some]
    rw [SpecEnv.runs_append, ht1]
    simp only [Option.bind_some, SpecEnv.runs, SpecEnv.run, ht2]

/-- C11: opening a scope, doing anything with balanced scopes inside it and closing it restores
exactly the visibility from before: every name denotes the same storage as before (or nothing, as
before). -/
theorem scope_close_restores (k : ScopeKind) (before inner : List ScopeOp) (hb : Balanced inner)
    (k' : ScopeKind) (en : Option Nat) (s s' : ScopeStack)
    (h1 : runOps (ScopeStack.new k) before = some s)
    (h2 : runOps s (.push k' en :: inner ++ [.pop]) = some s') :
    s'.abs = s.abs ∧ ∀ name, (s'.local? name).map (·.slot) = (s.local? name).map (·.slot) := by
  obtain ⟨inv, -⟩ := scopeInv_run (scopeInv_new k) before h1
  have h := abs_runs inv _ h2
  obtain ⟨t, ht⟩ := SpecEnv.runs_balanced hb [] s.abs
  rw [List.cons_append] at h
  simp only [SpecEnv.runs, SpecEnv.run, Option.bind_some] at h
  rw [SpecEnv.runs_append, ht] at h
  have : s'.abs = s.abs := by
    simp [SpecEnv.runs, SpecEnv.run] at h
    exact h.symm
  exact ⟨this, fun name => by rw [local?_lookup, local?_lookup, this]⟩

/-- A shadowing declaration inside a closed scope. -/
example : ∃ s s', runOps (ScopeStack.new .block) [.add "x" (.initialized true)] = some s ∧
    runOps s (.push .block none :: [.add "x" (.initialized true), .add "y" (.initialized false)] ++ [.pop])
      = some s' ∧ (s'.local? "x").map (·.slot) = some 0 ∧ s'.local? "y" = none ∧ s'.slotCount = 3 :=
  ⟨_, _, rfl, rfl, rfl, rfl, rfl⟩

end Dice
