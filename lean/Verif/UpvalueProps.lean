import Verif.ScopeProps

/-!
# Captured-variable resolution (C12)
-/

namespace Dice

open ScopeStack

/-! ## Specification -/

/-- The nearest function among the given (innermost first) that declares `name`: how many levels out,
and the variable its scopes show for the name. -/
def nearest (name : String) : List Ctx → Option (Nat × ScopeVar)
  | [] => none
  | c :: rest =>
    match c.scopes.local? name with
    | some v => some (0, v)
    | none => (nearest name rest).map fun r => (r.1 + 1, r.2)

/-- Following the capture descriptors from capture `i` of the innermost function: how many functions out
the captured variable lives, and its slot there. -/
def denotes : List Ctx → Nat → Option (Nat × Nat)
  | [], _ => none
  | cur :: rest, i =>
    match cur.upvalues[i]? with
    | none => none
    | some (.parentLocal slot _) => some (1, slot)
    | some (.outer j _) => (denotes rest j).map fun r => (r.1 + 1, r.2)

/-! ## What resolution changes -/

/-- Variables without the captured flag. -/
def ScopeVar.core (v : ScopeVar) : String × Nat × VarState := (v.name, v.slot, v.state)

/-- `c'` is `c` with more captures and more variables marked captured. -/
structure CtxExt (c c' : Ctx) : Prop where
  upvalues : ∃ more, c'.upvalues = c.upvalues ++ more
  scopes : c'.scopes.stack.map (fun x => (x.variables.map ScopeVar.core, x.slotCount)) =
    c.scopes.stack.map (fun x => (x.variables.map ScopeVar.core, x.slotCount))
  slotCount : c'.scopes.slotCount = c.scopes.slotCount
  same : c'.kind = c.kind ∧ c'.asm = c.asm ∧ c'.temporaryCount = c.temporaryCount

inductive CtxExts : List Ctx → List Ctx → Prop where
  | nil : CtxExts [] []
  | cons {c c' cs cs'} : CtxExt c c' → CtxExts cs cs' → CtxExts (c :: cs) (c' :: cs')

theorem CtxExt.refl (c : Ctx) : CtxExt c c := ⟨⟨[], by simp⟩, rfl, rfl, rfl, rfl, rfl⟩

theorem CtxExts.refl (cs : List Ctx) : CtxExts cs cs := by
  induction cs with
  | nil => exact .nil
  | cons c cs ih => exact .cons (.refl c) ih

theorem addUpvalue_spec (c : Ctx) (d : UpvalueDescriptor) (i : Nat) (c' : Ctx)
    (h : c.addUpvalue d = (i, c')) :
    CtxExt c c' ∧ c'.scopes = c.scopes ∧ c'.upvalues[i]? = some d ∧
      (c.upvalues.Nodup → c'.upvalues.Nodup) ∧
      (∀ x ∈ c'.upvalues, x ∈ c.upvalues ∨ x = d) := by
  unfold Ctx.addUpvalue at h
  split at h
  · rename_i pos hpos
    cases h
    rw [List.findIdx?_eq_some_iff_getElem] at hpos
    obtain ⟨hlt, hb, -⟩ := hpos
    have hb : c.upvalues[i] = d := by simpa using hb
    exact ⟨.refl c, rfl, by rw [List.getElem?_eq_getElem hlt, hb], id, fun x hx => .inl hx⟩
  · rename_i hnone
    cases h
    have hnone : d ∉ c.upvalues := by
      intro hd
      rw [List.findIdx?_eq_none_iff] at hnone
      simpa using hnone d hd
    refine ⟨⟨⟨[d], rfl⟩, rfl, rfl, rfl, rfl, rfl⟩, rfl, by simp, ?_, ?_⟩
    · intro hnd
      rw [List.nodup_append]
      refine ⟨hnd, by simp, ?_⟩
      intro a ha b hb
      simp only [List.mem_singleton] at hb
      subst hb
      rintro rfl
      exact hnone ha
    · intro x hx
      simpa using hx

theorem modifyScopes_core (name : String) (f : ScopeVar → ScopeVar) (h : ∀ v, (f v).core = v.core)
    (cs : List ScopeContext) :
    (modifyScopes name f cs).map (fun x => (x.variables.map ScopeVar.core, x.slotCount))
      = cs.map (fun x => (x.variables.map ScopeVar.core, x.slotCount)) := by
  induction cs with
  | nil => rfl
  | cons c cs ih =>
    unfold modifyScopes
    split
    · simp only [List.map_cons]
      rw [modifyVars_map ScopeVar.core name f h]
    · simp [ih]

theorem resolve_ext (name : String) (st : List Ctx) (i : Nat) (st' : List Ctx)
    (h : resolveUpvalue name st = some (i, st')) : CtxExts st st' := by
  induction st generalizing i st' with
  | nil => cases h
  | cons cur rest ih =>
    cases rest with
    | nil => cases h
    | cons parent rest =>
      unfold resolveUpvalue at h
      cases hl : parent.scopes.local? name with
      | some v =>
        rw [hl] at h
        simp only [] at h
        cases hadd : cur.addUpvalue (.parentLocal v.slot v.isMutable) with
        | mk i0 cur' =>
          rw [hadd] at h
          cases h
          refine .cons (addUpvalue_spec _ _ _ _ hadd).1 (.cons ?_ (.refl rest))
          refine ⟨⟨[], by simp⟩, ?_, rfl, rfl, rfl, rfl⟩
          exact modifyScopes_core name (fun v => { v with isCaptured := true }) (fun v => rfl) _
      | none =>
        rw [hl] at h
        simp only [] at h
        cases hrec : resolveUpvalue name (parent :: rest) with
        | none => rw [hrec] at h; cases h
        | some r =>
          obtain ⟨outer, pr⟩ := r
          rw [hrec] at h
          have hext := ih _ _ hrec
          cases hext with
          | cons hp hr =>
            rename_i parent' rest'
            simp only [] at h
            cases h
            exact .cons (addUpvalue_spec _ _ _ _ rfl).1 (.cons hp hr)

theorem denotes_mono {st st' : List Ctx} (h : CtxExts st st') (i : Nat) (d : Nat × Nat)
    (hd : denotes st i = some d) : denotes st' i = some d := by
  induction h generalizing i d with
  | nil => cases hd
  | @cons c c' cs cs' hc _ ih =>
    unfold denotes at hd ⊢
    obtain ⟨more, hm⟩ := hc.upvalues
    cases hu : c.upvalues[i]? with
    | none => rw [hu] at hd; cases hd
    | some u =>
      have hu' : c'.upvalues[i]? = some u := by
        rw [hm, List.getElem?_append_left (List.getElem?_eq_some_iff.mp hu).1, hu]
      rw [hu] at hd
      rw [hu']
      cases u with
      | parentLocal s m => exact hd
      | outer j m =>
        simp only [] at hd ⊢
        cases hj : denotes cs j with
        | none => rw [hj] at hd; cases hd
        | some r => rw [hj] at hd; rw [ih j r hj]; exact hd

/-! ## C12 -/

theorem find?_any {α : Type} (p : α → Bool) (l : List α) : (l.find? p).isSome = l.any p := by
  induction l with
  | nil => rfl
  | cons a l ih => by_cases h : p a <;> simp [h, List.find?_cons, ih]

theorem local?_modifyScopes (name : String) (f : ScopeVar → ScopeVar) (hf : ∀ v, (f v).name = v.name)
    (cs : List ScopeContext) :
    (visible (modifyScopes name f cs)).find? (fun v => v.name == name)
      = ((visible cs).find? (fun v => v.name == name)).map f := by
  induction cs with
  | nil => rfl
  | cons c cs ih =>
    unfold modifyScopes
    by_cases hany : c.variables.any (fun v => v.name == name) = true
    · rw [if_pos hany]
      simp only [visible, List.flatMap_cons, List.find?_append]
      have key : ∀ vs : List ScopeVar, (modifyVars name f vs).find? (fun v => v.name == name)
          = (vs.find? (fun v => v.name == name)).map f := by
        intro vs
        induction vs with
        | nil => rfl
        | cons v vs ihv =>
          unfold modifyVars
          by_cases hv : (v.name == name) = true
          · rw [if_pos hv]
            have : ((f v).name == name) = true := by rw [hf]; exact hv
            simp [List.find?_cons, hv, this]
          · rw [if_neg hv]
            simp [List.find?_cons, hv, ihv]
      rw [key]
      rw [← find?_any] at hany
      cases hfd : c.variables.find? (fun v => v.name == name) with
      | none => rw [hfd] at hany; cases hany
      | some v => simp
    · rw [if_neg hany]
      simp only [visible, List.flatMap_cons, List.find?_append] at ih ⊢
      rw [ih]
      have : c.variables.find? (fun v => v.name == name) = none := by
        cases hfd : c.variables.find? (fun v => v.name == name) with
        | none => rfl
        | some v =>
          exfalso; apply hany; rw [← find?_any, hfd]; rfl
      simp [this]

/-- C12: resolving a captured name fails exactly if no enclosing function shows a variable of that name.
Otherwise the capture index returned is a valid capture of the current function, the chain of capture
descriptors starting there ends at exactly the slot of the variable the nearest declaring function
shows for the name, with that variable's mutability; every capture recorded earlier at any level
still denotes what it did; and the variable is now marked captured in its function. -/
theorem resolveUpvalue_correct (name : String) (cur : Ctx) (outerFns : List Ctx) :
    match nearest name outerFns, resolveUpvalue name (cur :: outerFns) with
    | none, r => r = none
    | some (level, v), some (i, st') =>
        denotes st' i = some (level + 1, v.slot) ∧
        (∃ c rest d, st' = c :: rest ∧ c.upvalues[i]? = some d ∧ d.isMutable = v.isMutable) ∧
        (∀ k j d, denotes ((cur :: outerFns).drop k) j = some d → denotes (st'.drop k) j = some d) ∧
        (∃ c v', st'[level + 1]? = some c ∧ c.scopes.local? name = some v' ∧
          v'.isCaptured = true ∧ v'.slot = v.slot)
    | some _, none => False := by
  induction outerFns generalizing cur with
  | nil => simp [nearest, resolveUpvalue]
  | cons parent rest ih =>
    have hdrop : ∀ st' i, resolveUpvalue name (cur :: parent :: rest) = some (i, st') →
        ∀ k j d, denotes ((cur :: parent :: rest).drop k) j = some d → denotes (st'.drop k) j = some d := by
      intro st' i h k j d hd
      have hext := resolve_ext _ _ _ _ h
      clear h
      generalize (cur :: parent :: rest) = st at hext hd
      clear ih
      induction k generalizing st st' with
      | zero => exact denotes_mono hext j d hd
      | succ k ihk =>
        cases hext with
        | nil => simp [denotes] at hd
        | cons _ h2 => exact ihk _ _ h2 hd
    cases hl : parent.scopes.local? name with
    | some v =>
      have hn : nearest name (parent :: rest) = some (0, v) := by simp [nearest, hl]
      rw [hn]
      cases hadd : cur.addUpvalue (.parentLocal v.slot v.isMutable) with
      | mk i0 cur' =>
        have hres : resolveUpvalue name (cur :: parent :: rest) = some (i0, cur' :: { parent with
            scopes := parent.scopes.modifyLocal name (fun v => { v with isCaptured := true }) } :: rest) := by
          unfold resolveUpvalue; rw [hl]; simp only []; rw [hadd]
        rw [hres]
        obtain ⟨-, -, hget, -⟩ := addUpvalue_spec _ _ _ _ hadd
        refine ⟨by simp [denotes, hget], ⟨cur', _, _, rfl, hget, rfl⟩, hdrop _ _ hres,
          ⟨_, { v with isCaptured := true }, rfl, ?_, rfl, rfl⟩⟩
        simp only [ScopeStack.local?, ScopeStack.modifyLocal] at hl ⊢
        rw [local?_modifyScopes name (fun v => { v with isCaptured := true }) (fun v => rfl), hl]
        rfl
    | none =>
      have ih := ih parent
      have hn : nearest name (parent :: rest) = (nearest name rest).map fun r => (r.1 + 1, r.2) := by
        simp [nearest, hl]
      rw [hn]
      cases hnear : nearest name rest with
      | none =>
        rw [hnear] at ih
        simp only [] at ih
        simp only [Option.map_none]
        unfold resolveUpvalue
        rw [hl]
        simp [ih]
      | some r =>
        obtain ⟨level, v⟩ := r
        rw [hnear] at ih
        cases hrec : resolveUpvalue name (parent :: rest) with
        | none => rw [hrec] at ih; exact ih.elim
        | some q =>
          obtain ⟨outer, st0⟩ := q
          rw [hrec] at ih
          obtain ⟨ih1, ⟨p', rest', d, rfl, ih2, ih3⟩, -, ⟨cc, v', ih4, ih5, ih6, ih7⟩⟩ := ih
          cases hadd : cur.addUpvalue (.outer outer d.isMutable) with
          | mk i0 cur' =>
            have hres : resolveUpvalue name (cur :: parent :: rest) = some (i0, cur' :: p' :: rest') := by
              unfold resolveUpvalue; rw [hl]; simp only []; rw [hrec]; simp only [ih2]; rw [hadd]
            simp only [Option.map_some]
            rw [hres]
            obtain ⟨-, -, hget, -⟩ := addUpvalue_spec _ _ _ _ hadd
            refine ⟨?_, ⟨cur', _, _, rfl, hget, ih3⟩, hdrop _ _ hres, ⟨cc, v', ?_, ih5, ih6, ih7⟩⟩
            · unfold denotes
              rw [hget]
              simp [ih1]
            · simpa using ih4

/-- The slice access in `resolve_upvalue` (compiler_stack.rs:141) is in range. -/
theorem resolveUpvalue_index_lt (name : String) (st st' : List Ctx) (i : Nat)
    (h : resolveUpvalue name st = some (i, st')) :
    ∃ c rest, st' = c :: rest ∧ i < c.upvalues.length := by
  cases st with
  | nil => cases h
  | cons cur outerFns =>
    have := resolveUpvalue_correct name cur outerFns
    rw [h] at this
    split at this
    · cases this
    · rename_i heq
      cases heq
      obtain ⟨-, ⟨c, rest, d, rfl, hd, -⟩, -⟩ := this
      exact ⟨c, rest, rfl, (List.getElem?_eq_some_iff.mp hd).1⟩
    · cases this

/-! ## Each function captures a variable at most once -/

/-- A capture descriptor of a function makes sense for the enclosing functions. -/
def DescOk : UpvalueDescriptor → List Ctx → Prop
  | .parentLocal s m, rest => ∃ p ps, rest = p :: ps ∧
      ∃ v ∈ visible p.scopes.stack, v.slot = s ∧ v.isMutable = m
  | .outer j m, rest => ∃ p ps, rest = p :: ps ∧ ∃ d, p.upvalues[j]? = some d ∧ d.isMutable = m

/-- Invariant of the compiler's stack of functions. -/
def StackInv : List Ctx → Prop
  | [] => True
  | c :: rest => c.upvalues.Nodup ∧ ScopeInv c.scopes ∧ (∀ d ∈ c.upvalues, DescOk d rest) ∧ StackInv rest

theorem visible_core (cs cs' : List ScopeContext)
    (h : cs'.map (fun x => (x.variables.map ScopeVar.core, x.slotCount)) =
      cs.map (fun x => (x.variables.map ScopeVar.core, x.slotCount))) :
    (visible cs').map ScopeVar.core = (visible cs).map ScopeVar.core := by
  have e : ∀ l : List ScopeContext, (visible l).map ScopeVar.core =
      (l.map (fun x => (x.variables.map ScopeVar.core, x.slotCount))).flatMap (·.1) := by
    intro l
    induction l with
    | nil => rfl
    | cons c l ih => simp only [visible, List.flatMap_cons, List.map_append, List.map_cons] at ih ⊢; rw [ih]
  rw [e, e, h]

theorem DescOk.mono {d : UpvalueDescriptor} {rest rest' : List Ctx} (h : CtxExts rest rest')
    (hd : DescOk d rest) : DescOk d rest' := by
  cases d with
  | parentLocal s m =>
    obtain ⟨p, ps, rfl, v, hv, h1, h2⟩ := hd
    cases h with
    | @cons _ p' _ ps' hp _ =>
      have hm : v.core ∈ (visible p'.scopes.stack).map ScopeVar.core := by
        rw [visible_core _ _ hp.scopes]; exact List.mem_map_of_mem hv
      obtain ⟨v', hv', he⟩ := List.mem_map.mp hm
      simp only [ScopeVar.core, Prod.mk.injEq] at he
      refine ⟨p', ps', rfl, v', hv', by rw [he.2.1]; exact h1, ?_⟩
      rw [← h2]; unfold ScopeVar.isMutable; rw [he.2.2]
  | outer j m =>
    obtain ⟨p, ps, rfl, u, hu, h1⟩ := hd
    cases h with
    | @cons _ p' _ ps' hp _ =>
      obtain ⟨more, hm⟩ := hp.upvalues
      refine ⟨p', ps', rfl, u, ?_, h1⟩
      rw [hm, List.getElem?_append_left (List.getElem?_eq_some_iff.mp hu).1, hu]

theorem scopeInv_of_core {s s' : ScopeStack}
    (h : s'.stack.map (fun x => (x.variables.map ScopeVar.core, x.slotCount)) =
      s.stack.map (fun x => (x.variables.map ScopeVar.core, x.slotCount)))
    (hc : s'.slotCount = s.slotCount) (hi : ScopeInv s) : ScopeInv s' := by
  refine scopeInv_of_shape ?_ hc hi
  have e : ∀ t : ScopeStack, t.shape =
      (t.stack.map (fun x => (x.variables.map ScopeVar.core, x.slotCount))).map
        (fun p => (p.1.map (fun q => (q.1, q.2.1)), p.2)) := by
    intro t
    simp [ScopeStack.shape, ScopeVar.core, Function.comp_def]
  rw [e, e, h]

theorem local?_mem {s : ScopeStack} {name : String} {v : ScopeVar} (h : s.local? name = some v) :
    v ∈ visible s.stack ∧ v.name = name := by
  unfold ScopeStack.local? at h
  exact ⟨List.mem_of_find?_eq_some h, by simpa using List.find?_some h⟩

theorem stackInv_resolve (name : String) (st st' : List Ctx) (i : Nat)
    (h : resolveUpvalue name st = some (i, st')) (inv : StackInv st) : StackInv st' := by
  induction st generalizing i st' with
  | nil => cases h
  | cons cur rest ih =>
    cases rest with
    | nil => cases h
    | cons parent rest =>
      obtain ⟨hnd, hsc, hdesc, invp⟩ := inv
      have hexts := resolve_ext _ _ _ _ h
      unfold resolveUpvalue at h
      cases hl : parent.scopes.local? name with
      | some v =>
        rw [hl] at h
        simp only [] at h
        cases hadd : cur.addUpvalue (.parentLocal v.slot v.isMutable) with
        | mk i0 cur' =>
          rw [hadd] at h
          cases h
          obtain ⟨-, hss, -, hnd', hmem⟩ := addUpvalue_spec _ _ _ _ hadd
          cases hexts with
          | cons _ hrest =>
            have hcp : CtxExt parent { parent with
                scopes := parent.scopes.modifyLocal name (fun v => { v with isCaptured := true }) } := by
              cases hrest with
              | cons hp _ => exact hp
            refine ⟨hnd' hnd, by rw [hss]; exact hsc, ?_, invp.1, ?_, invp.2.2.1, invp.2.2.2⟩
            · intro d hd
              rcases hmem d hd with hd | rfl
              · exact (hdesc d hd).mono hrest
              · refine DescOk.mono hrest ?_
                exact ⟨parent, rest, rfl, v, (local?_mem hl).1, rfl, rfl⟩
            · exact scopeInv_of_core hcp.scopes hcp.slotCount invp.2.1
      | none =>
        rw [hl] at h
        simp only [] at h
        cases hrec : resolveUpvalue name (parent :: rest) with
        | none => rw [hrec] at h; cases h
        | some r =>
          obtain ⟨outer, pr⟩ := r
          rw [hrec] at h
          have hi := ih _ _ hrec invp
          obtain ⟨c0, r0, rfl, hlt⟩ := resolveUpvalue_index_lt _ _ _ _ hrec
          have hget : c0.upvalues[outer]? = some c0.upvalues[outer] := List.getElem?_eq_getElem hlt
          simp only [hget] at h
          cases hadd : cur.addUpvalue (.outer outer c0.upvalues[outer].isMutable) with
          | mk i0 cur' =>
            rw [hadd] at h
            cases h
            obtain ⟨-, hss, -, hnd', hmem⟩ := addUpvalue_spec _ _ _ _ hadd
            cases hexts with
            | cons _ hrest =>
              refine ⟨hnd' hnd, by rw [hss]; exact hsc, ?_, hi⟩
              intro d hd
              rcases hmem d hd with hd | rfl
              · exact (hdesc d hd).mono hrest
              · exact ⟨c0, r0, rfl, _, hget, rfl⟩

/-- The operations on the stack of functions: start and finish a function, scope operations in the
innermost function, and resolving a captured name. -/
inductive StackOp where
  | push (kind : CompilerKind)
  | pop
  | scope (op : ScopeOp)
  | asm (a : Asm)
  | resolve (name : String)

def StackOp.run (st : List Ctx) : StackOp → Option (List Ctx)
  | .push k => some ({ kind := k } :: st)
  | .pop => match st with
    | [] => none
    | _ :: rest => some rest
  | .scope o => match st with
    | [] => none
    | c :: rest => (o.run c.scopes).map fun s => { c with scopes := s } :: rest
  | .asm a => match st with
    | [] => none
    | c :: rest => some ({ c with asm := a } :: rest)
  | .resolve name => (resolveUpvalue name st).map (·.2)

def runStackOps (st : List Ctx) : List StackOp → Option (List Ctx)
  | [] => some st
  | o :: os => (o.run st).bind (runStackOps · os)

theorem stackInv_run {st st' : List Ctx} (inv : StackInv st) (os : List StackOp)
    (h : runStackOps st os = some st') : StackInv st' := by
  induction os generalizing st with
  | nil => cases h; exact inv
  | cons o os ih =>
    simp only [runStackOps] at h
    cases ho : o.run st with
    | none => rw [ho] at h; cases h
    | some st1 =>
      rw [ho] at h
      refine ih ?_ h
      clear ih h
      cases o with
      | push k =>
        cases ho
        exact ⟨List.Pairwise.nil, scopeInv_new _, by simp, inv⟩
      | pop =>
        cases st with
        | nil => cases ho
        | cons c rest => cases ho; exact inv.2.2.2
      | scope op =>
        cases st with
        | nil => cases ho
        | cons c rest =>
          simp only [StackOp.run] at ho
          cases hs : op.run c.scopes with
          | none => rw [hs] at ho; cases ho
          | some s =>
            rw [hs] at ho
            cases ho
            exact ⟨inv.1, (scopeInv_step inv.2.1 op hs).1, inv.2.2.1, inv.2.2.2⟩
      | asm a =>
        cases st with
        | nil => cases ho
        | cons c rest => cases ho; exact inv
      | resolve name =>
        simp only [StackOp.run] at ho
        cases hr : resolveUpvalue name st with
        | none => rw [hr] at ho; cases ho
        | some r =>
          rw [hr] at ho
          cases ho
          exact stackInv_resolve name st r.2 r.1 hr inv

theorem denotes_level_pos {st : List Ctx} {i : Nat} {d : Nat × Nat} (h : denotes st i = some d) :
    1 ≤ d.1 := by
  cases st with
  | nil => cases h
  | cons c rest =>
    unfold denotes at h
    split at h
    · cases h
    · cases h; exact Nat.le_refl _
    · rename_i j m _
      cases hj : denotes rest j with
      | none => rw [hj] at h; cases h
      | some r => rw [hj] at h; cases h; simp

theorem slot_unique {cs : ScopeStack} (h : ScopeInv cs) {v v' : ScopeVar}
    (hv : v ∈ visible cs.stack) (hv' : v' ∈ visible cs.stack) (he : v.slot = v'.slot) : v = v' := by
  obtain ⟨i, hi, rfl⟩ := List.getElem_of_mem hv
  obtain ⟨j, hj, rfl⟩ := List.getElem_of_mem hv'
  have hnd : ((visible cs.stack).map (·.slot)).Nodup := by
    rw [h.slots]
    unfold List.Nodup
    rw [List.pairwise_reverse]
    exact List.Pairwise.imp (fun h => Ne.symm h) List.nodup_range
  have gi : ((visible cs.stack).map (·.slot))[i]? = some (visible cs.stack)[i].slot := by
    rw [List.getElem?_map, List.getElem?_eq_getElem hi]; rfl
  have gj : ((visible cs.stack).map (·.slot))[j]? = some (visible cs.stack)[j].slot := by
    rw [List.getElem?_map, List.getElem?_eq_getElem hj]; rfl
  rw [← he] at gj
  have li := (List.getElem?_eq_some_iff.mp gi).1
  have := (List.getElem?_inj li hnd).mp (gi.trans gj.symm)
  subst this
  rfl

theorem denotes_inj {st : List Ctx} (inv : StackInv st) (i j : Nat) (d : Nat × Nat)
    (hi : denotes st i = some d) (hj : denotes st j = some d) : i = j := by
  induction st generalizing i j d with
  | nil => cases hi
  | cons c rest ih =>
    obtain ⟨hnd, -, hdesc, invr⟩ := inv
    unfold denotes at hi hj
    cases hui : c.upvalues[i]? with
    | none => rw [hui] at hi; cases hi
    | some ui =>
      cases huj : c.upvalues[j]? with
      | none => rw [huj] at hj; cases hj
      | some uj =>
        rw [hui] at hi
        rw [huj] at hj
        have hli := (List.getElem?_eq_some_iff.mp hui).1
        have hsame : ui = uj → i = j := by
          rintro rfl
          exact (List.getElem?_inj hli hnd).mp (hui.trans huj.symm)
        have hdi := hdesc ui (List.mem_of_getElem? hui)
        have hdj := hdesc uj (List.mem_of_getElem? huj)
        cases ui with
        | parentLocal s m =>
          cases uj with
          | parentLocal s' m' =>
            simp only [Option.some.injEq] at hi hj
            rw [← hi] at hj
            simp only [Prod.mk.injEq, true_and] at hj
            subst hj
            obtain ⟨p, ps, rfl, v, hv, h1, h2⟩ := hdi
            obtain ⟨p', ps', heq, v', hv', h1', h2'⟩ := hdj
            cases heq
            have := slot_unique invr.2.1 hv hv' (h1.trans h1'.symm)
            subst this
            exact hsame (by rw [← h2, ← h2'])
          | outer k m' =>
            simp only [Option.some.injEq] at hi
            simp only [] at hj
            cases hk : denotes rest k with
            | none => rw [hk] at hj; cases hj
            | some r =>
              rw [hk] at hj
              have := denotes_level_pos hk
              simp only [Option.map_some, Option.some.injEq] at hj
              rw [← hi] at hj
              simp only [Prod.mk.injEq] at hj
              omega
        | outer k m =>
          simp only [] at hi
          cases hk : denotes rest k with
          | none => rw [hk] at hi; cases hi
          | some r =>
            rw [hk] at hi
            have hpos := denotes_level_pos hk
            simp only [Option.map_some, Option.some.injEq] at hi
            cases uj with
            | parentLocal s' m' =>
              simp only [Option.some.injEq] at hj
              rw [← hi] at hj
              simp only [Prod.mk.injEq] at hj
              omega
            | outer k' m' =>
              simp only [] at hj
              cases hk' : denotes rest k' with
              | none => rw [hk'] at hj; cases hj
              | some r' =>
                rw [hk'] at hj
                simp only [Option.map_some, Option.some.injEq] at hj
                rw [← hi] at hj
                simp only [Prod.mk.injEq] at hj
                have hr : r' = r := Prod.ext (by omega) hj.2
                subst hr
                have hkk := ih invr k k' r' hk hk'
                subst hkk
                obtain ⟨p, ps, rfl, u, hu, h1⟩ := hdi
                obtain ⟨p', ps', heq, u', hu', h1'⟩ := hdj
                cases heq
                rw [hu] at hu'
                cases hu'
                exact hsame (by rw [← h1, ← h1'])

/-- C12: after any history of the compiler's function stack, no function captures the same variable
(same enclosing function, same slot) under two different capture indices. -/
theorem capture_at_most_once (kind : CompilerKind) (os : List StackOp) (st : List Ctx)
    (h : runStackOps [{ kind }] os = some st) (k i j : Nat) (d : Nat × Nat)
    (hi : denotes (st.drop k) i = some d) (hj : denotes (st.drop k) j = some d) : i = j := by
  have inv0 : StackInv [({ kind } : Ctx)] := ⟨List.Pairwise.nil, scopeInv_new _, by simp, trivial⟩
  have inv := stackInv_run inv0 os h
  clear h inv0
  induction k generalizing st with
  | zero => exact denotes_inj inv i j d hi hj
  | succ k ih =>
    cases st with
    | nil => simp [denotes] at hi
    | cons c rest => exact ih rest hi hj inv.2.2.2

/-- Two nesting levels: the inner function uses `x` of the outermost and `y` of the middle function,
`x` twice. -/
example :
    let st := runStackOps [{ kind := .script }]
      [.scope (.add "x" (.initialized true)), .push (.function none), .scope (.add "y" (.initialized false)),
       .push (.function none), .resolve "x", .resolve "y", .resolve "x"]
    (st.map fun st => st.map (·.upvalues)) =
      some [[.outer 0 true, .parentLocal 0 false], [.parentLocal 0 true], []] ∧
    (st.bind fun st => denotes st 0) = some (2, 0) ∧ (st.bind fun st => denotes st 1) = some (1, 0) := by
  decide

end Dice
